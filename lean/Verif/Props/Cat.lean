import Verif.Proof.Cat
import Verif.Props.Copy
/-!
# C67: `bigfile-cat`
-/

set_option autoImplicit false

namespace Verif

open Spec

variable {env : Env} {K : Kind} {A : Content} {w : World} {bb : Block}

/-- The option `-c`; without it the program's `size` is -1. -/
def Spec.countArg : Option Nat → Int
  | none => -1
  | some n => n

/-- How a row is shown: its bytes, or a line of text. -/
def Spec.showRow (env : Env) (K : Kind) (binary : Bool) : List Byte → List Byte :=
  if binary then fun r => r else rowText env K

/-- Valid dtypes have at most 16 bytes. -/
theorem PlainDtype.small {dt : CStr} (h : PlainDtype dt) (m : Machine) : itemsize m dt ≤ 16 := by
  obtain ⟨_, h2, _, h4⟩ := h
  have ht : dt.take 7 = dt := List.take_of_length_le (by omega)
  have hd : (dtypeNormalize m dt).drop 2 = dt.drop 2 := by
    cases dt with
    | nil => simp [dtypeIsValid, charAt] at h4
    | cons c t =>
      have hc : c = 60 ∨ c = 62 ∨ c = 124 ∨ c = 61 := by
        simp [dtypeIsValid, charAt] at h4
        rcases h4.1.1 with ((h | h) | h) | h <;> simp [h]
      rcases hc with rfl | rfl | rfl | rfl <;> simp only [dtypeNormalize, ht] <;> rfl
  unfold itemsize
  rw [hd]
  unfold dtypeIsValid at h4
  simp only [Bool.and_eq_true, Bool.not_eq_true', Bool.or_eq_false_iff, decide_eq_false_iff_not] at h4
  omega

theorem Spec.Holds.small {fs : FS} (h : Holds env K bb fs A) : K.w ≤ 16 := by
  have := h.savable.header.dt.small env.m
  rw [h.ok.item] at this
  omega

theorem catRender (h : BlockOk env bb K.w K.nm) (hk : dtypeNormalize env.m bb.dtype = K.dtype) (binary : Bool)
    (hb : K.w ≤ 128) :
    Prints env bb K.w K.nm (if binary then catBinary env bb else catText env bb) (showRow env K binary) := by
  unfold showRow
  cases binary with
  | true => exact catBinary_prints h
  | false => exact catText_prints h hk hb

theorem catEnd_eq {size start n c : Nat} (hs : start ≤ size) :
    catEnd size c (start + n) start - start = min (size - start) ((n + (c - 1)) / c * c) ∨ n = 0 := by
  by_cases h : n = 0
  · exact Or.inr h
  · left
    unfold catEnd
    rw [if_pos (by omega), Nat.add_sub_cancel_left]
    generalize (n + (c - 1)) / c * c = q
    omega

/-- From an open block on, with any failures of the system: nothing on disk changes; a program that ends normally has printed exactly
`printedRows` rows; one that fails has printed the first few of these. Without failures, if these rows have been written, it
ends normally. -/
theorem C67_data (env : Env) (K : Kind) (A : Content) (bb : Block) (binary : Bool) (start : Nat) (count : Option Nat) (buffersize : Nat)
    (buf : Int) (mem : Mem) (wd : World) (h : Holds env K bb wd.fs A) (hstart : start ≤ A.size)
    (hall : ∀ r, start ≤ r → r < start + printedRows A start count (buffersize / (K.nm * K.w)) → (A.rows r).isSome = true)
    (hbuf : K.w * K.nm ≤ buffersize) (hmax : A.size + A.size < 9223372036854775808)
    (hcount : ∀ n, count = some n → n + start < 9223372036854775808) :
    wpc (catData env bb (if binary then catBinary env bb else catText env bb) start (countArg count) buffersize buf mem) wd
      (fun x w' => w'.fs = wd.fs ∧
        (x.1 = .done → x.2 = shownRows (showRow env K binary) A start (printedRows A start count (buffersize / (K.nm * K.w)))) ∧
        (x.1 ≠ .done → x.1 = .failed ∧ ∃ k, k ≤ printedRows A start count (buffersize / (K.nm * K.w)) ∧
          x.2 = shownRows (showRow env K binary) A start k) ∧
        (wd.faults = noFaults → x.1 = .done ∧ w'.faults = noFaults))
      (fun w' => w'.fs = wd.fs ∧ wd.faults ≠ noFaults) := by
  have hpr := catRender (env := env) h.ok h.kind binary (by have := h.small; omega)
  have hsz := h.size
  have hpos : 0 < K.nm * K.w := Nat.mul_pos h.ok.memb0 h.ok.item0
  have hw := h.ok.felInt
  have hcw : K.nm * K.w = K.w * K.nm := Nat.mul_comm _ _
  have hrow : bb.nmemb * itemsize env.m bb.dtype = ((K.nm * K.w : Nat) : Int) := by
    rw [h.ok.memb, h.ok.item, Int.natCast_mul]
  have hfi : fitsInt ((K.nm * K.w : Nat) : Int) = true := by
    unfold fitsInt
    simp only [Bool.and_eq_true, decide_eq_true_eq]
    omega
  have hchunk : 0 < buffersize / (K.nm * K.w) := Nat.div_pos (by omega) hpos
  have hrows : ∀ k, (∀ r, start ≤ r → r < start + k → (A.rows r).isSome = true) →
      flatN (fun i => showRow env K binary (row env.m wd.fs bb (start + i))) k = shownRows (showRow env K binary) A start k := by
    intro k hk
    unfold shownRows
    apply flatN_congr
    intro i hi
    obtain ⟨bytes, hb⟩ := Option.isSome_iff_exists.mp (hk (start + i) (by omega) (by omega))
    rw [(h.rows _ _ hb).2.1, hb]
    rfl
  -- the number of rows
  generalize hn : wantedRows A start count = n
  have hn1 : n ≤ A.size - start := by
    rw [← hn]; unfold wantedRows; cases count <;> simp <;> omega
  have hsize : (if countArg count = -1 ∨ bb.size < u64 (countArg count + start) then i64 (bb.size - start) else countArg count) = (n : Int) := by
    cases count with
    | none =>
      have e2 : wantedRows A start none = A.size - start := rfl
      rw [show countArg none = -1 from rfl, if_pos (Or.inl rfl), i64_of_range (by omega) (by omega), ← hn, e2]
      omega
    | some c =>
      have := hcount c rfl
      have e2 : wantedRows A start (some c) = min c (A.size - start) := rfl
      rw [show countArg (some c) = (c : Int) from rfl, ← hn, e2, show ((c : Int) + start) = ((c + start : Nat) : Int) by omega, u64_of_nat (by omega)]
      split
      · rw [i64_of_range (by omega) (by omega)]; omega
      · omega
  unfold catData
  have hov : (if countArg count ≠ -1 ∧ ¬ (-9223372036854775808 ≤ countArg count + (start : Int) ∧
      countArg count + (start : Int) < 9223372036854775808) then none else some ()) = some () := by
    apply if_neg
    cases count with
    | none => simp [countArg]
    | some c =>
      have := hcount c rfl
      rw [show countArg (some c) = (c : Int) from rfl]
      omega
  rw [hov, wpc_bind, wpc_lift_some]
  simp only
  rw [hsize, hrow, hfi, u64_of_nat (by omega)]
  have hne : ¬ (((K.nm * K.w : Nat) : Int) = 0) := by omega
  simp only [Bool.not_true, Bool.false_or, hne, decide_false, Bool.false_eq_true, if_false]
  rw [wpc_bind, wpc_lift_some]
  generalize hper : buffersize / (K.nm * K.w) = per at *
  rw [show ((start : Int) + (n : Int) - (start : Int)).toNat = n by omega]
  by_cases hn0 : n = 0
  · rw [catLoop, if_neg (by omega), wpc_pure]
    have hp0 : printedRows A start count per = 0 := by
      unfold printedRows
      rw [hn, hn0]
      simp
    rw [hp0]
    exact ⟨rfl, fun _ => rfl, fun he => absurd rfl he, fun hnf => ⟨rfl, hnf⟩⟩
  · have hpe : printedRows A start count per = catEnd bb.size (min per n) (start + n) start - start := by
      rw [hsz]
      rcases catEnd_eq (c := min per n) hstart with he | he
      · rw [he]; unfold printedRows; rw [hn]
      · exact absurd he hn0
    rw [hpe] at hall ⊢
    have hspec := catLoop_spec h.ok hpr (min per n) n (start + n) (by omega) (by omega) (by omega) (by omega) buf wd.fs
      (n + 1) per start mem [] wd (by omega) (by omega) rfl rfl
    have hge := catEnd_ge (size := bb.size) (c := min per n) (stop := start + n) (off := start) (by omega) (by omega) (by omega)
    rw [show ((start + n : Nat) : Int) = (start : Int) + (n : Int) by omega] at hspec
    apply wpc_mono hspec
    · rintro ⟨e, o⟩ w' ⟨g1, g2, g3, g4⟩
      refine ⟨g1, fun he => ?_, fun he => ?_, fun hnf => ?_⟩
      · rw [g2 he, List.nil_append, hrows _ hall]
      · obtain ⟨g5, k, g6, g7⟩ := g3 he
        exact ⟨g5, k, g6, by rw [g7, List.nil_append, hrows k (fun r h1 h2 => hall r h1 (by omega))]⟩
      · exact g4 hnf (fun r h1 h2 => by
          obtain ⟨bytes, hb⟩ := Option.isSome_iff_exists.mp (hall r h1 (by omega))
          exact (h.rows _ _ hb).2.2)
    · exact fun _ h => h

/-- `bigfile-cat` of a closed block: what is printed, exactly. -/
theorem C67_cat (env : Env) (K : Kind) (A : Content) (file block : CStr) (binary : Bool) (start : Nat) (count : Option Nat)
    (buffersize : Nat) (buf : Int) (mem : Mem) (w : World) (hnf : w.faults = noFaults) (ht : TreeOk w.fs)
    (hf : file ≠ []) (hfl : file.length ≤ 8192) (hsrc : OnDisk env K w.fs (pathJoin file block) A) (hstart : start ≤ A.size)
    (hall : ∀ r, start ≤ r → r < start + printedRows A start count (buffersize / (K.nm * K.w)) → (A.rows r).isSome = true)
    (hbuf : K.w * K.nm ≤ buffersize) (hmax : A.size + A.size < 9223372036854775808)
    (hcount : ∀ n, count = some n → n + start < 9223372036854775808) :
    ∃ w', catMain env file block binary start (countArg count) buffersize buf mem w =
        .ok (.done, shownRows (showRow env K binary) A start (printedRows A start count (buffersize / (K.nm * K.w)))) w' ∧
      w'.fs = w.fs ∧ w'.faults = noFaults := by
  have hsrcdir : w.fs.node (resolve (pathJoin file block)) = some .dir := by
    obtain ⟨_, _, b, hb, _, h⟩ := hsrc
    rw [← hb]
    exact h.dir.dir
  have hfdir : w.fs.node (resolve file) = some .dir := by
    rw [resolve_join file block hf] at hsrcdir
    by_cases he : names block = []
    · rw [he, List.append_nil] at hsrcdir; exact hsrcdir
    · exact ht.prefix_dir _ _ (by rw [hsrcdir]; rfl) he
  obtain ⟨w1, e1, f1, nf1⟩ := bigFileOpen_succeeds hnf hf (by rw [hfdir]; rfl) hfl
  obtain ⟨bb, w2, e2, f2, nf2, _, hd2, h2⟩ := (show OnDisk env K w1.fs _ A by rw [f1]; exact hsrc).opens nf1
  rw [← f2] at h2
  obtain ⟨⟨e, o⟩, w3, e3, g1, g2, _, g4⟩ := wpc_returns (C67_data env K A bb binary start count buffersize buf mem w2 h2 hstart hall hbuf
    hmax hcount) (fun _ hc => hc.2 nf2)
  obtain ⟨he, nf3⟩ := g4 nf2
  simp only at he
  subst he
  have ho := g2 rfl
  simp only at ho
  subst ho
  have hcl : blockClose env bb w3 = .ok 0 w3 := blockClose_clean hd2 (by rw [h2.pending]; exact hsrc.1)
  refine ⟨w3, ?_, by rw [g1, f2, f1], nf3⟩
  unfold catMain openBlock
  simp only [bind, M.bind]
  rw [e1]
  simp only [ne_eq, not_true_eq_false, if_false]
  rw [M.bind, e2]
  dsimp only
  rw [M.bind, e3]
  simp only [ne_eq, not_true_eq_false, if_false]
  rw [M.bind, hcl]
  rfl

/-- When the number of rows asked for fits into the buffer, is a multiple of the chunk, or reaches the end, no more are printed. -/
theorem printedRows_exact {start : Nat} {count : Option Nat} {per : Nat} (hper : 0 < per)
    (h : wantedRows A start count ≤ per ∨ per ∣ wantedRows A start count ∨ wantedRows A start count = A.size - start) :
    printedRows A start count per = wantedRows A start count := by
  have hn1 : wantedRows A start count ≤ A.size - start := by
    unfold wantedRows; cases count <;> simp <;> omega
  unfold printedRows
  generalize wantedRows A start count = n at *
  by_cases hn0 : n = 0
  · subst hn0; simp
  by_cases hle : n ≤ per
  · have : (n + (n - 1)) / n = 1 := by apply Nat.div_eq_of_lt_le <;> omega
    rw [Nat.min_eq_right hle, this]
    omega
  · rw [Nat.min_eq_left (by omega : per ≤ n)]
    rcases h with h | ⟨k, rfl⟩ | h
    · exact absurd h hle
    · rw [Nat.mul_add_div hper, Nat.div_eq_of_lt (by omega), Nat.add_zero, Nat.mul_comm k]
      omega
    · have h1 := Nat.lt_div_mul_add (a := n + (per - 1)) hper
      generalize (n + (per - 1)) / per * per = q at *
      omega

/-- **C67** (partial: the rows must have been written, a row fits into the buffer,
and the number of rows asked for must fit into the buffer, be a multiple of the number of rows that fit, or reach the end). Then
`bigfile-cat` prints exactly the rows asked for, in order, and changes nothing. -/
theorem C67_cat_partial (env : Env) (K : Kind) (A : Content) (file block : CStr) (binary : Bool) (start : Nat) (count : Option Nat)
    (buffersize : Nat) (buf : Int) (mem : Mem) (w : World) (hnf : w.faults = noFaults) (ht : TreeOk w.fs)
    (hf : file ≠ []) (hfl : file.length ≤ 8192) (hsrc : OnDisk env K w.fs (pathJoin file block) A) (hstart : start ≤ A.size)
    (hall : ∀ r, start ≤ r → r < start + wantedRows A start count → (A.rows r).isSome = true)
    (hbuf : K.w * K.nm ≤ buffersize) (hmax : A.size + A.size < 9223372036854775808)
    (hcount : ∀ n, count = some n → n + start < 9223372036854775808)
    (hfit : wantedRows A start count ≤ buffersize / (K.nm * K.w) ∨ buffersize / (K.nm * K.w) ∣ wantedRows A start count ∨
      wantedRows A start count = A.size - start) :
    ∃ w', catMain env file block binary start (countArg count) buffersize buf mem w =
        .ok (.done, shownRows (showRow env K binary) A start (wantedRows A start count)) w' ∧ w'.fs = w.fs ∧ w'.faults = noFaults := by
  have hpos : 0 < K.nm * K.w := by
    obtain ⟨_, _, b, _, _, h⟩ := hsrc
    exact Nat.mul_pos h.ok.memb0 h.ok.item0
  have he := printedRows_exact (A := A) (start := start) (count := count)
    (Nat.div_pos (by rw [Nat.mul_comm]; exact hbuf) hpos) hfit
  have h := C67_cat env K A file block binary start count buffersize buf mem w hnf ht hf hfl hsrc hstart (by rw [he]; exact hall) hbuf
    hmax hcount
  rw [he] at h
  exact h

/-! ### The example -/

/-- The example of `C67_cat_partial`: rows 1 to 4 of five, two at a time, as text. -/
example : ∃ w w', exCopySrc exTreeWorld = .ok 0 w ∧
    catMain exEnv b!"d" b!"z" false 1 4 9 500 exMem w =
      .ok (.done, shownRows (showRow exEnv exKind false) exCopyA 1 4) w' ∧ w'.fs = w.fs := by
  obtain ⟨w, e, nf, ht, h⟩ := exCopy_src
  have hall : ∀ r < 5, (exCopyA.rows r).isSome = true := by decide +kernel
  obtain ⟨w', e', h'⟩ := C67_cat_partial exEnv exKind exCopyA b!"d" b!"z" false 1 (some 4) 9 500 exMem w nf ht
    (by decide) (by decide) h (by decide) (fun r _ hr => hall r hr) (by decide) (by decide) (by decide)
    (Or.inr (Or.inl (by decide)))
  exact ⟨w, w', e, e', h'.1⟩

/-- What these rows are. -/
example : shownRows (showRow exEnv exKind false) exCopyA 1 4 = b!"11 \n10 \n11 \n12 \n" := by decide +kernel

/-- More rows than asked for: of five rows, two of which fit into the buffer, `-c 3` prints four. -/
theorem C67_more : ((do let _ ← exCopySrc; catMain exEnv b!"d" b!"z" true 0 3 9 500 exMem) exTreeWorld : Res (Exit × List Byte)).val? =
    some (.done, shownRows (showRow exEnv exKind true) exCopyA 0 4) ∧ wantedRows exCopyA 0 (some 3) = 3 := by decide +kernel

/-- With a buffer smaller than a row the loop makes no progress. -/
theorem C67_small_buffer : (match ((do let _ ← exCopySrc; catMain exEnv b!"d" b!"z" true 0 (-1) 3 500 exMem) exTreeWorld :
    Res (Exit × List Byte)) with
    | .hang => true
    | _ => false) = true := by decide +kernel

end Verif
