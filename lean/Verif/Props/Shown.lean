import Verif.Props.Cat
import Verif.Proof.Tools
/-!
# C67: what the printed elements look like
-/

set_option autoImplicit false

namespace Verif

open Spec

variable {env : Env}

theorem takeWhile_oneLine {s : CStr} (h : ∀ c ∈ s, c ≠ 0) : s.takeWhile (· ≠ 0) = s := by
  apply takeWhile_all
  intro c hc
  simpa using h c hc

theorem normalize_native (m : Machine) (ty : CStr) (h : ty.length ≤ 6) : dtypeNormalize m (61 :: ty) = m.endian :: ty := by
  rw [normalize_eq, List.take_of_length_le h]

theorem flatN_flatten (g : Nat → List Byte) (n : Nat) : ((List.range n).map g).flatten = flatN g n := by
  induction n with
  | zero => rfl
  | succ n ih => rw [List.range_succ, List.map_append, List.flatten_append, ih]; simp [flatN]

/-- **C67, elements.** The text that is printed for an element is the one that a user expects. -/
theorem C67_text (env : Env) (hf : FmtOk env) (dt : CStr) (bs : List Byte) (text : CStr) (h : ShownAs env dt bs text) :
    elemText env dt bs = text := by
  have hone : ∀ x y : CStr, OneLine x → OneLine y → (x ++ b!"+" ++ y ++ b!"I").takeWhile (· ≠ 0) = x ++ b!"+" ++ y ++ b!"I" := by
    intro x y hx hy
    apply takeWhile_oneLine
    intro c hc
    simp only [List.mem_append, List.mem_cons, List.not_mem_nil, or_false] at hc
    rcases hc with ((hc | rfl) | hc) | rfl
    · exact (hx c hc).1
    · decide
    · exact (hy c hc).1
    · decide
  have horder : ∀ o : Order, o.char = env.m.endian → o = env.m.order := by
    intro o ho
    rw [← order_char] at ho
    cases o <;> cases h : env.m.order <;> rw [h] at ho <;> first | rfl | exact absurd ho (by decide)
  cases h with
  | int t o bs hl => exact elemText_int t o bs hl
  | char o c hc =>
    unfold elemText
    rw [toNative_one, List.drop_succ_cons, List.drop_zero, normalize_native _ _ (by decide)]
    unfold formatNative
    simp [hc]
  | bool o c =>
    unfold elemText
    rw [toNative_one, List.drop_succ_cons, List.drop_zero, normalize_native _ _ (by decide)]
    unfold formatNative
    have hv : natDec env.m [c] = c.toNat := by
      rw [natDec_eq]
      cases env.m.order <;> simp [orderVal, posVal]
    rw [hv]
    simp only [List.drop_succ_cons, List.drop_zero]
    rw [if_neg (by decide), if_pos trivial]
    have he : (if (env.m.charSigned && decide (128 ≤ c.toNat)) = true then (c.toNat : Int) - 256 else c.toNat) = charVal env.m.charSigned c := by
      unfold charVal
      simp only [Bool.and_eq_true, decide_eq_true_eq]
    rw [he]
    exact takeWhile_oneLine fun x hx => (intStr_clean _ x hx).1
  | f4 o bs hl =>
    unfold elemText
    rw [List.drop_succ_cons, List.drop_zero, normalize_native _ _ (by decide)]
    unfold formatNative
    rw [natDec_toNative]
    simp only [List.drop_succ_cons, List.drop_zero]
    rw [if_neg (by decide), if_neg (by decide), if_neg (by decide), if_neg (by decide), if_neg (by decide), if_neg (by decide), if_neg (by decide),
      if_pos trivial]
    exact takeWhile_oneLine fun c hc => ((hf _).1.1 c hc).1
  | f8 o bs hl =>
    unfold elemText
    rw [List.drop_succ_cons, List.drop_zero, normalize_native _ _ (by decide)]
    unfold formatNative
    rw [natDec_toNative]
    simp only [List.drop_succ_cons, List.drop_zero]
    rw [if_neg (by decide), if_neg (by decide), if_neg (by decide), if_neg (by decide), if_neg (by decide), if_neg (by decide), if_pos trivial]
    exact takeWhile_oneLine fun c hc => ((hf _).2.1 c hc).1
  | c8 o re im ho h1 h2 =>
    unfold elemText
    have hn : toNative env.m (o.char :: b!"c8") (re ++ im) = re ++ im := by
      unfold toNative foreign charAt
      rw [ho]
      simp
    rw [hn, List.drop_succ_cons, List.drop_zero, normalize_native _ _ (by decide)]
    unfold formatNative
    simp only [List.drop_succ_cons, List.drop_zero]
    rw [if_neg (by decide), if_neg (by decide), if_neg (by decide), if_neg (by decide), if_neg (by decide), if_neg (by decide), if_neg (by decide),
      if_neg (by decide), if_pos trivial, List.take_left' h1, List.drop_left' h1, natDec_eq, natDec_eq, ← horder o ho]
    exact hone _ _ (hf _).1.1 (hf _).1.1
  | c16 o re im ho h1 h2 =>
    unfold elemText
    have hn : toNative env.m (o.char :: b!"c16") (re ++ im) = re ++ im := by
      unfold toNative foreign charAt
      rw [ho]
      simp
    rw [hn, List.drop_succ_cons, List.drop_zero, normalize_native _ _ (by decide)]
    unfold formatNative
    simp only [List.drop_succ_cons, List.drop_zero]
    rw [if_neg (by decide), if_neg (by decide), if_neg (by decide), if_neg (by decide), if_neg (by decide), if_neg (by decide), if_neg (by decide),
      if_neg (by decide), if_neg (by decide), if_pos trivial, List.take_left' h1, List.drop_left' h1, natDec_eq, natDec_eq, ← horder o ho]
    exact hone _ _ (hf _).2.1 (hf _).2.1

/-- **C67, rows as text.** `bigfile-cat` of rows that have been written prints for every row a line with its elements as a user expects them, each
followed by a blank (how many rows, see `C67_cat`). -/
theorem C67_shown (env : Env) (K : Kind) (A : Content) (file block : CStr) (start : Nat) (count : Option Nat)
    (buffersize : Nat) (buf : Int) (mem : Mem) (w : World) (T : Nat → Nat → CStr) (hfmt : FmtOk env) (hnf : w.faults = noFaults) (ht : TreeOk w.fs)
    (hf : file ≠ []) (hfl : file.length ≤ 8192) (hsrc : OnDisk env K w.fs (pathJoin file block) A) (hstart : start ≤ A.size)
    (hall : ∀ r, start ≤ r → r < start + wantedRows A start count → (A.rows r).isSome = true)
    (hbuf : K.w * K.nm ≤ buffersize) (hmax : A.size + A.size < 9223372036854775808)
    (hcount : ∀ n, count = some n → n + start < 9223372036854775808)
    (hfit : wantedRows A start count ≤ buffersize / (K.nm * K.w) ∨ buffersize / (K.nm * K.w) ∣ wantedRows A start count ∨
      wantedRows A start count = A.size - start)
    (hT : ∀ r, start ≤ r → r < start + wantedRows A start count → ∀ bytes, A.rows r = some bytes → ∀ j, j < K.nm →
      ShownAs env K.dtype ((bytes.drop (j * K.w)).take K.w) (T r j)) :
    ∃ w', catMain env file block false start (countArg count) buffersize buf mem w =
        .ok (.done, ((List.range (wantedRows A start count)).map fun i =>
          ((List.range K.nm).map fun j => T (start + i) j ++ b!" ").flatten ++ b!"\n").flatten) w' ∧ w'.fs = w.fs := by
  obtain ⟨w', e, h1, _⟩ := C67_cat_partial env K A file block false start count buffersize buf mem w hnf ht hf hfl hsrc hstart hall hbuf hmax hcount hfit
  refine ⟨w', ?_, h1⟩
  rw [e, flatN_flatten]
  congr 2
  unfold shownRows
  apply flatN_congr
  intro i hi
  obtain ⟨bytes, hb⟩ := Option.isSome_iff_exists.mp (hall (start + i) (by omega) (by omega))
  rw [hb]
  show rowText env K bytes = _
  unfold rowText
  rw [flatN_flatten]
  congr 1
  apply flatN_congr
  intro j hj
  rw [C67_text env hfmt _ _ _ (hT (start + i) (by omega) (by omega) bytes hb j hj)]

/-- Four rows of `<i4`. -/
example : ∃ w w', exCopySrc exTreeWorld = .ok 0 w ∧
    catMain exEnv b!"d" b!"z" false 1 4 9 500 exMem w = .ok (.done, b!"11 \n10 \n11 \n12 \n") w' := by
  obtain ⟨w, e, nf, ht, h⟩ := exCopy_src
  have hall : ∀ r < 5, (exCopyA.rows r).isSome = true := by decide +kernel
  have hwant : wantedRows exCopyA 1 (some 4) = 4 := by decide +kernel
  have hlen : ∀ r < 5, ∀ j < 1, ((((exCopyA.rows r).getD []).drop (j * 4)).take 4).length = 4 := by decide +kernel
  obtain ⟨w', e', h'⟩ := C67_shown exEnv exKind exCopyA b!"d" b!"z" 1 (some 4) 9 500 exMem w
    (fun r j => intStr (intVal .little .i4 (((((exCopyA.rows r).getD []).drop (j * 4)).take 4)))) exFmt nf ht (by decide) (by decide) h
    (by decide) (fun r _ hr => hall r (by omega)) (by decide) (by decide) (by decide) (Or.inr (Or.inl (by decide)))
    (by
      intro r h1 h2 bytes hb j hj
      have hl := hlen r (by omega) j hj
      rw [hb] at hl
      rw [hb]
      exact ShownAs.int .i4 .little _ hl)
  refine ⟨w, w', e, ?_⟩
  refine Eq.trans e' (congrArg (fun t => Res.ok (Exit.done, t) w') ?_)
  decide +kernel

/-- One element of each type. -/
example : ShownAs exEnv b!">i4" [255, 255, 255, 254] b!"-2" ∧ ShownAs exEnv b!"<a1" [65] b!"A" ∧ ShownAs exEnv b!"<b1" [255] b!"-1" ∧
    ShownAs exEnv b!"<c8" [0, 0, 192, 63, 0, 0, 192, 63] b!"1.5+1.5I" :=
  ⟨.int .i4 .big _ rfl, .char .little 65 (by decide), .bool .little 255, .c8 .little [0, 0, 192, 63] [0, 0, 192, 63] rfl rfl rfl⟩

end Verif
