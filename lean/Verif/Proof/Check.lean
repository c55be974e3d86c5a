import Verif.Proof.LsTool
import Verif.Proof.AttrText
import Verif.Proof.History
/-!
# `bigfile-check`: words, sums
-/

set_option autoImplicit false

namespace Verif

open Spec

/-! ## Words -/

theorem wordsAux_clean {a : CStr} (h : Clean a) : ∀ (cur s : CStr), wordsAux cur (a ++ s) = wordsAux (a.reverse ++ cur) s := by
  induction a with
  | nil => intro cur s; rfl
  | cons c a ih =>
    intro cur s
    have hc := h c (by simp)
    rw [List.cons_append, wordsAux, if_neg (by rintro (h1 | h1 | h1) <;> simp [h1] at hc), ih (fun x hx => h x (by simp [hx]))]
    simp

theorem words_one {a : CStr} (h : Clean a) (hne : a ≠ []) : words a = [a] := by
  unfold words
  have := wordsAux_clean h [] []
  rw [List.append_nil] at this
  rw [this, wordsAux, List.append_nil, if_neg (by simpa using hne), List.reverse_reverse]

theorem words_cons {a : CStr} (h : Clean a) (hne : a ≠ []) (s : CStr) : words (a ++ 32 :: s) = a :: words s := by
  unfold words
  rw [wordsAux_clean h, wordsAux, if_pos (Or.inl rfl), List.append_nil, if_neg (by simpa using hne), List.reverse_reverse]
  rfl

theorem words_blanks (n : Nat) (s : CStr) : words (List.replicate n 32 ++ s) = words s := by
  induction n with
  | zero => rfl
  | succ n ih =>
    rw [List.replicate_succ, List.cons_append]
    unfold words at ih ⊢
    rw [wordsAux, if_pos (Or.inl rfl), if_pos rfl, List.nil_append, ih]

theorem linesOf_one {a : CStr} (h : ∀ c ∈ a, c ≠ 10) : ∀ cur, linesOf cur (a ++ [10]) = [cur.reverse ++ a] := by
  induction a with
  | nil => intro cur; simp [linesOf]
  | cons c a ih =>
    intro cur
    rw [List.cons_append, linesOf, if_neg (h c (by simp)), ih (fun x hx => h x (by simp [hx]))]
    simp

theorem awkWords_line {a : CStr} (h : ∀ c ∈ a, c ≠ 10) (k : Nat) : awkWords k (a ++ [10]) = words ((words a).getD (k - 1) []) := by
  unfold awkWords
  rw [linesOf_one h]
  simp

/-! ## Numbers -/

theorem decVal_digits {s : CStr} (hd : ∀ c ∈ s, IsDigit 10 c) (hne : s ≠ []) : decVal s = some (digitsVal 10 0 s) := by
  have hbyte : ∀ c, IsDigit 10 c → (48 ≤ c && c ≤ 57) = true ∧ (digitVal c).getD 0 = c.toNat - 48 := by
    rintro c ⟨d, hd, rfl⟩
    have : ∀ d : Fin 10, (48 ≤ digitChar d.val && digitChar d.val ≤ 57) = true ∧
      (digitVal (digitChar d.val)).getD 0 = (digitChar d.val).toNat - 48 := by decide
    exact this ⟨d, hd⟩
  unfold decVal
  rw [if_pos ⟨hne, by rw [List.all_eq_true]; exact fun c hc => (hbyte c (hd c hc)).1⟩]
  congr 1
  have : ∀ (s : CStr), (∀ c ∈ s, IsDigit 10 c) → ∀ acc, s.foldl (fun n c => n * 10 + (c.toNat - 48)) acc = digitsVal 10 acc s := by
    intro s
    induction s with
    | nil => intro _ acc; rfl
    | cons c s ih =>
      intro h acc
      rw [List.foldl_cons, digitsVal, (hbyte c (h c (by simp))).2, ih (fun x hx => h x (by simp [hx]))]
  exact this s hd 0

theorem decVal_decStr (n : Nat) : decVal (decStr n) = some n := by
  rw [decVal_digits (decStr_digits n) (decStr_ne_nil n), decStr_val]

theorem fieldZero_digits (k n : Nat) : ∀ c ∈ fieldZero k (decStr n), IsDigit 10 c := by
  intro c hc
  unfold fieldZero at hc
  rcases List.mem_append.mp hc with hc | hc
  · rw [(List.mem_replicate.mp hc).2]; exact ⟨0, by omega, by decide⟩
  · exact decStr_digits n c hc

theorem fieldZero_ne (k n : Nat) : fieldZero k (decStr n) ≠ [] := by
  unfold fieldZero
  simp [decStr_ne_nil n]

theorem decVal_fieldZero (k n : Nat) : decVal (fieldZero k (decStr n)) = some n := by
  rw [decVal_digits (fieldZero_digits k n) (fieldZero_ne k n)]
  unfold fieldZero
  rw [digitsVal_append]
  have : ∀ j, digitsVal 10 0 (List.replicate j 48) = 0 := by
    intro j
    induction j with
    | zero => rfl
    | succ j ih =>
      rw [List.replicate_succ, digitsVal, show (digitVal 48).getD 0 = 0 by decide]
      exact ih
  rw [this, decStr_val]

theorem clean_digits {s : CStr} (hd : ∀ c ∈ s, IsDigit 10 c) : Clean s := fun c hc => (hd c hc).clean (by omega)

/-! ## Sums -/

theorem foldl_sum (data : List Byte) : ∀ s, data.foldl (fun s b => (s + b.toNat) % 4294967296) (s % 4294967296) =
    (s + byteSum data) % 4294967296 := by
  induction data with
  | nil => intro s; simp [byteSum]
  | cons b data ih =>
    intro s
    rw [List.foldl_cons, ← Nat.mod_mod, Nat.mod_add_mod, Nat.mod_mod, ih]
    unfold byteSum
    simp only [List.map_cons, List.sum_cons]
    rw [Nat.add_assoc]

theorem sysvReduce_folded (s : Nat) : sysvReduce (s % 4294967296) = folded s := by
  unfold sysvReduce folded
  simp only [Nat.mod_mod]

theorem sumTool_words (data : List Byte) : awkWords 1 (sumTool data) = [decStr (folded (byteSum data))] := by
  have h0 := foldl_sum data 0
  rw [Nat.zero_add, Nat.zero_mod] at h0
  unfold sumTool
  rw [h0, sysvReduce_folded]
  generalize folded (byteSum data) = x
  generalize (data.length + 511) / 512 = y
  have e : decStr x ++ b!" " ++ decStr y ++ b!"\n" = (decStr x ++ 32 :: decStr y) ++ [10] := by simp
  rw [e, awkWords_line]
  · rw [words_cons (decStr_clean x) (decStr_ne_nil x)]
    exact words_one (decStr_clean x) (decStr_ne_nil x)
  · intro c hc
    rcases List.mem_append.mp hc with hc | hc
    · exact (decStr_clean x c hc).2.2.1
    · rcases List.mem_cons.mp hc with rfl | hc
      · decide
      · exact (decStr_clean y c hc).2.2.1

theorem intStr_ne_nil (x : Int) : intStr x ≠ [] := by
  unfold intStr
  split
  · simp
  · exact decStr_ne_nil _

theorem fieldLeft_blank (n : Nat) (s t : CStr) : fieldLeft n s ++ 32 :: t = s ++ 32 :: (List.replicate (n - s.length) 32 ++ t) := by
  unfold fieldLeft
  rw [List.append_assoc]
  congr 1
  rw [← List.cons_append, ← List.replicate_succ, List.replicate_succ', List.append_assoc]
  rfl

/-- The fifth word of a long line is the checksum. -/
theorem longLine_words {base name : CStr} {h : Header} (hn : Clean name) (hne : name ≠ []) (hb : Clean base)
    (hdt : Clean h.dtype) (hdne : h.dtype ≠ []) :
    awkWords 5 (longLine base name h) = [fieldZero 5 (decStr (folded h.cks.sum))] := by
  unfold longLine
  generalize hx : fieldZero 5 (decStr (folded h.cks.sum)) = x
  have hxc : Clean x := by rw [← hx]; exact clean_digits (fieldZero_digits _ _)
  have hxn : x ≠ [] := by rw [← hx]; exact fieldZero_ne _ _
  have hp : Clean (pathJoin base name) := by
    unfold pathJoin
    split
    · exact hn
    · split
      · intro c hc
        rcases List.mem_append.mp hc with hc | hc
        · exact hb c hc
        · exact hn c hc
      · intro c hc
        rcases List.mem_append.mp hc with hc | hc
        · exact hb c hc
        · rcases List.mem_cons.mp hc with rfl | hc
          · decide
          · exact hn c hc
  generalize pathJoin base name = p at hp
  have e : fieldLeft 28 name ++ b!" " ++ h.dtype ++ b!" " ++ intStr h.nmemb ++ b!" " ++ fieldRight 12 (decStr h.fsize.sum) ++ b!" " ++
      x ++ b!" " ++ decStr h.fsize.length ++ b!" " ++ p ++ b!"\n" =
      (name ++ 32 :: (List.replicate (28 - name.length) 32 ++ (h.dtype ++ 32 :: (intStr h.nmemb ++ 32 ::
        (List.replicate (12 - (decStr h.fsize.sum).length) 32 ++ (decStr h.fsize.sum ++ 32 :: (x ++ 32 :: (decStr h.fsize.length ++ 32 :: p)))))))) ++ [10] := by
    rw [show name ++ 32 :: (List.replicate (28 - name.length) 32 ++ (h.dtype ++ 32 :: (intStr h.nmemb ++ 32 ::
        (List.replicate (12 - (decStr h.fsize.sum).length) 32 ++ (decStr h.fsize.sum ++ 32 :: (x ++ 32 :: (decStr h.fsize.length ++ 32 :: p))))))) =
      fieldLeft 28 name ++ 32 :: (h.dtype ++ 32 :: (intStr h.nmemb ++ 32 ::
        (List.replicate (12 - (decStr h.fsize.sum).length) 32 ++ (decStr h.fsize.sum ++ 32 :: (x ++ 32 :: (decStr h.fsize.length ++ 32 :: p)))))) from
      (fieldLeft_blank _ _ _).symm]
    unfold fieldRight
    simp only [List.append_assoc, List.cons_append, List.nil_append]
  rw [e, awkWords_line]
  · rw [words_cons hn hne, words_blanks, words_cons hdt hdne, words_cons (intStr_clean _) (intStr_ne_nil _), words_blanks,
      words_cons (decStr_clean _) (decStr_ne_nil _), words_cons hxc hxn]
    exact words_one hxc hxn
  · have c1 : ∀ {s : CStr}, Clean s → ∀ c ∈ s, c ≠ 10 := fun hs c hc => (hs c hc).2.2.1
    have c2 : ∀ n, ∀ c ∈ List.replicate n (32 : Byte), c ≠ 10 := by
      intro n c hc; rw [(List.mem_replicate.mp hc).2]; decide
    intro c hc
    simp only [List.mem_append, List.mem_cons] at hc
    rcases hc with hc | rfl | hc | hc | rfl | hc | rfl | hc | hc | rfl | hc | rfl | hc | rfl | hc
    · exact c1 hn c hc
    · decide
    · exact c2 _ c hc
    · exact c1 hdt c hc
    · decide
    · exact c1 (intStr_clean _) c hc
    · decide
    · exact c2 _ c hc
    · exact c1 (decStr_clean _) c hc
    · decide
    · exact c1 hxc c hc
    · decide
    · exact c1 (decStr_clean _) c hc
    · decide
    · exact c1 hp c hc

/-- Two bytes that differ give different sums. -/
theorem folded_one (p b b' q : Nat) (hb : b < 256) (hb' : b' < 256) (h : b ≠ b') : folded (p + b + q) ≠ folded (p + b' + q) := by
  have hm : ∀ s, folded s % 65535 = s % 4294967296 % 65535 ∧ (folded s = 0 → s % 4294967296 = 0) := by
    intro s
    unfold folded
    dsimp only
    constructor <;> omega
  intro he
  have h1 := hm (p + b + q)
  have h2 := hm (p + b' + q)
  have h3 : (0 : Nat) = folded 0 := rfl
  by_cases hz : folded (p + b + q) = 0
  · have := h1.2 hz
    have := h2.2 (by rw [← he]; exact hz)
    omega
  · have h4 : (p + b + q) % 4294967296 % 65535 = (p + b' + q) % 4294967296 % 65535 := by rw [← h1.1, ← h2.1, he]
    have h5 : (p + b + q) % 4294967296 ≠ 0 := by
      intro h0
      apply hz
      unfold folded
      rw [h0]
    have h6 : (p + b' + q) % 4294967296 ≠ 0 := by
      intro h0
      apply hz
      rw [he]
      unfold folded
      rw [h0]
    clear h1 h2 h3 hm he hz
    have hx := Nat.div_add_mod (p + b + q) 4294967296
    have hy := Nat.div_add_mod (p + b' + q) 4294967296
    have hx1 := Nat.mod_lt (p + b + q) (show 0 < 4294967296 by omega)
    have hy1 := Nat.mod_lt (p + b' + q) (show 0 < 4294967296 by omega)
    generalize (p + b + q) % 4294967296 = x at *
    generalize (p + b' + q) % 4294967296 = y at *
    generalize (p + b + q) / 4294967296 = e at *
    generalize (p + b' + q) / 4294967296 = g at *
    rcases Nat.lt_trichotomy e g with h | h | h
    · obtain rfl : g = e + 1 := by omega
      omega
    · subst h
      omega
    · obtain rfl : e = g + 1 := by omega
      omega

/-- Rows one after another are the files one after another. -/
theorem flatN_files {env : Env} {bb : Block} {fs : FS}
    (hlen : ∀ f (h : f < bb.fsize.length), (fs.bytes (fileKey bb.basename (.data f))).length = bb.fsize[f] * rowSize env.m bb) :
    ∀ f, f ≤ bb.fsize.length → flatN (row env.m fs bb) (start bb.fsize f) = flatN (fun f => fs.bytes (fileKey bb.basename (.data f))) f := by
  intro f
  induction f with
  | zero => intro _; rfl
  | succ f ih =>
    intro hf
    have hsum := start_succ' bb.fsize f hf
    rw [hsum]
    have hadd : ∀ (g : Nat → List Byte) (a b : Nat), flatN g (a + b) = flatN g a ++ flatN (fun i => g (a + i)) b := by
      intro g a b
      induction b with
      | zero => simp [flatN]
      | succ b ih => rw [Nat.add_succ, flatN, ih, flatN, List.append_assoc]
    rw [hadd, ih (by omega), flatN]
    congr 1
    rw [← flatN_slices _ _ _ (hlen f hf)]
    apply flatN_congr
    intro i hi
    unfold row
    have hloc := locate_unique bb.fsize f (start bb.fsize f + i) (by omega) (by omega)
    unfold rowOff rowFile
    rw [hloc]
    simp only
    rw [Nat.add_sub_cancel_left]

end Verif
