import Verif.Proof.Digits
import Verif.Model.Block
import Verif.Spec.Header
/-!
# Printing and scanning the header
-/

set_option autoImplicit false

namespace Verif

theorem IsDigit.notSpace {b : Nat} (hb : b ≤ 16) {c : Byte} (h : IsDigit b c) : isSpace c = false := by
  have hr := h.range hb
  unfold isSpace
  have h1 : c ≠ 32 := by intro e; rw [e] at hr; simp at hr
  have h2 : ¬ c ≤ 13 := by
    intro e
    have := UInt8.le_iff_toNat_le.mp e
    simp at this
    omega
  simp [h1, h2]

theorem IsDigit.notSign {b : Nat} (hb : b ≤ 16) {c : Byte} (h : IsDigit b c) : c ≠ 45 ∧ c ≠ 43 := by
  have hr := h.range hb
  constructor <;> (intro e; rw [e] at hr; simp at hr)

theorem IsDigit.notX {b : Nat} (hb : b ≤ 16) {c : Byte} (h : IsDigit b c) : c ≠ 120 ∧ c ≠ 88 := by
  have hr := h.range hb
  constructor <;> (intro e; rw [e] at hr; simp at hr)

theorem scanWs_cons {c : Byte} {s : CStr} (h : isSpace c = false) : scanWs (c :: s) = c :: s := by
  simp [scanWs, List.dropWhile_cons, h]

theorem scanWs_space (s : CStr) : scanWs (32 :: s) = scanWs s := rfl
theorem scanWs_nl (s : CStr) : scanWs (10 :: s) = scanWs s := rfl

theorem scanWs_digits {b : Nat} (hb : b ≤ 16) {d rest : CStr} (hd : ∀ c ∈ d, IsDigit b c) (hne : d ≠ []) :
    scanWs (d ++ rest) = d ++ rest := by
  cases d with
  | nil => exact absurd rfl hne
  | cons c d => rw [List.cons_append, scanWs_cons ((hd c (by simp)).notSpace hb)]

theorem takeSign_digits {b : Nat} (hb : b ≤ 16) {d rest : CStr} (hd : ∀ c ∈ d, IsDigit b c) (hne : d ≠ []) :
    takeSign (d ++ rest) = (false, 0, d ++ rest) := by
  cases d with
  | nil => exact absurd rfl hne
  | cons c d =>
    have := (hd c (by simp)).notSign hb
    rw [List.cons_append]
    unfold takeSign
    split
    · rename_i h; injection h with h1 _; exact absurd h1 this.1
    · rename_i h; injection h with h1 _; exact absurd h1 this.2
    · rfl

theorem startsDigit_digits {b : Nat} (hb : b ≤ 16) {d rest : CStr} (hd : ∀ c ∈ d, IsDigit b c) (hne : d ≠ []) :
    startsDigit b (d ++ rest) = true := by
  cases d with
  | nil => exact absurd rfl hne
  | cons c d =>
    obtain ⟨v, hv, hc⟩ := hd c (by simp)
    rw [List.cons_append]
    simp only [startsDigit]
    rw [hc, digitVal_digitChar v (by omega)]
    simpa using hv

/-- Scanning an unsigned decimal number. -/
theorem scanNum_dec (n w : Nat) (rest : CStr) (hw : (decStr n).length ≤ w)
    (hrest : startsDigit 10 rest = false) : scanNum 10 w (decStr n ++ rest) = some (false, n, rest) := by
  have hd := decStr_digits n
  have hne := decStr_ne_nil n
  have hl : 0 < (decStr n).length := List.length_pos_iff.mpr hne
  unfold scanNum
  rw [scanWs_digits (by omega) hd hne]
  dsimp only
  rw [takeSign_digits (by omega) hd hne]
  simp only [Nat.sub_zero, Nat.reduceBEq, Bool.false_and, Bool.false_eq_true, if_false]
  rw [startsDigit_digits (by omega) hd hne]
  have : (w == 0) = false := by simp; omega
  rw [this]
  simp only [Bool.not_true, Bool.or_self, Bool.false_eq_true, if_false]
  rw [takeDigits_spec 10 (by omega) _ _ hd hrest w 0 hw, decStr_val]

/-- Scanning a negative decimal number. -/
theorem scanNum_neg (n w : Nat) (rest : CStr) (hw : (decStr n).length + 1 ≤ w)
    (hrest : startsDigit 10 rest = false) :
    scanNum 10 w (45 :: decStr n ++ rest) = some (true, n, rest) := by
  have hd := decStr_digits n
  have hne := decStr_ne_nil n
  have hl : 0 < (decStr n).length := List.length_pos_iff.mpr hne
  unfold scanNum
  rw [List.cons_append, scanWs_cons (by decide)]
  have e : takeSign (45 :: (decStr n ++ rest)) = (true, 1, decStr n ++ rest) := rfl
  dsimp only
  rw [e]
  simp only [Nat.reduceBEq, Bool.false_and, Bool.false_eq_true, if_false]
  rw [startsDigit_digits (by omega) hd hne]
  have : (w - 1 == 0) = false := by simp; omega
  rw [this]
  simp only [Bool.not_true, Bool.or_self, Bool.false_eq_true, if_false]
  rw [takeDigits_spec 10 (by omega) _ _ hd hrest (w - 1) 0 (by omega), decStr_val]

/-- `%d` reads back what `%d` printed. -/
theorem scanInt_intStr (x : Int) (rest : CStr) (h0 : -2147483648 ≤ x) (h1 : x < 2147483648)
    (hrest : startsDigit 10 rest = false) : scanInt (intStr x ++ rest) = some (x, rest) := by
  unfold scanInt intStr
  by_cases hx : x < 0
  · rw [if_pos hx]
    rw [scanNum_neg _ _ _ (by simp; omega) hrest]
    simp only [if_true, Option.some.injEq, Prod.mk.injEq, and_true]
    have e : -((x.natAbs : Nat) : Int) = x := by omega
    rw [e]
    unfold clampLong
    rw [if_neg (by omega), if_neg (by omega)]
    exact i32_of_range h0 h1
  · rw [if_neg hx]
    rw [scanNum_dec _ _ _ (by simp; omega) hrest]
    simp only [Bool.false_eq_true, if_false, Option.some.injEq, Prod.mk.injEq, and_true]
    have e : ((x.natAbs : Nat) : Int) = x := by omega
    rw [e]
    unfold clampLong
    rw [if_neg (by omega), if_neg (by omega)]
    exact i32_of_range h0 h1

theorem clampLong_of_range {x : Int} (h0 : -9223372036854775808 ≤ x) (h1 : x < 9223372036854775808) :
    clampLong x = x := by
  unfold clampLong
  rw [if_neg (by omega), if_neg (by omega)]

theorem scanPtrdiff_aux (x : Int) (rest : CStr) (h0 : -9223372036854775808 ≤ x) (h1 : x < 9223372036854775808)
    (hrest : startsDigit 10 rest = false) :
    scanPtrdiff (intStr x ++ rest) = some (u64 x, rest) := by
  unfold scanPtrdiff intStr
  by_cases hx : x < 0
  · rw [if_pos hx]
    rw [scanNum_neg _ _ _ (by simp; omega) hrest]
    have e : -((x.natAbs : Nat) : Int) = x := by omega
    simp only [if_true]
    rw [e, clampLong_of_range h0 h1]
  · rw [if_neg hx]
    rw [scanNum_dec _ _ _ (by simp; omega) hrest]
    have e : ((x.natAbs : Nat) : Int) = x := by omega
    simp only [Bool.false_eq_true, if_false]
    rw [e, clampLong_of_range h0 h1]

/-- `%td` reads back a `size_t` printed with `%td`. -/
theorem scanPtrdiff_intStr (n : Nat) (rest : CStr) (h : n < 18446744073709551616)
    (hrest : startsDigit 10 rest = false) :
    scanPtrdiff (intStr (i64 n) ++ rest) = some (n, rest) := by
  have hr := i64_range (n : Int)
  rw [scanPtrdiff_aux _ _ hr.1 hr.2 hrest, u64_i64, u64_of_nat h]

/-- `%u` reads back what `%u` printed. -/
theorem scanUInt_decStr (n : Nat) (rest : CStr) (h : n < 4294967296)
    (hrest : startsDigit 10 rest = false) : scanUInt (decStr n ++ rest) = some (n, rest) := by
  unfold scanUInt
  rw [scanNum_dec _ _ _ (by simp; omega) hrest]
  simp only [Bool.false_eq_true, if_false, Option.some.injEq, Prod.mk.injEq, and_true]
  rw [if_neg (by omega), u32_of_nat h]

theorem digitsAux_length (b : Nat) (hb : 2 ≤ b) (fuel n k : Nat) (hk : 1 ≤ k) (hn : n < b ^ k) :
    (digitsAux b fuel n).length ≤ k := by
  induction fuel generalizing n k with
  | zero => simp [digitsAux]; exact hk
  | succ f ih =>
    simp only [digitsAux]
    split
    · simp; exact hk
    · rename_i hlt
      cases k with
      | zero => omega
      | succ k =>
        rw [Nat.pow_succ] at hn
        have h2 : n / b < b ^ k := Nat.div_lt_of_lt_mul (by rw [Nat.mul_comm]; exact hn)
        have hk1 : 1 ≤ k := by
          rcases Nat.eq_zero_or_pos k with h0 | h0
          · subst h0; simp at h2; omega
          · exact h0
        have := ih (n / b) k hk1 h2
        simp only [List.length_append, List.length_singleton]
        omega

theorem hex6Str_length (n : Nat) (h : n < 16777216) : (hex6Str n).length = 6 := by
  unfold hex6Str
  simp only
  have := digitsAux_length 16 (by omega) n n 6 (by omega) (by omega)
  simp only [List.length_append, List.length_replicate]
  omega

/-- `%06X` reads back an index of at most six digits. -/
theorem scanHex6_hex6Str (n : Nat) (rest : CStr) (h : n < 16777216) :
    scanHex6 (hex6Str n ++ rest) = some ((n : Int), rest) := by
  have hd := hex6Str_digits n
  have hne := hex6Str_ne_nil n
  have hl := hex6Str_length n h
  unfold scanHex6 scanNum
  rw [scanWs_digits (by omega) hd hne]
  dsimp only
  rw [takeSign_digits (by omega) hd hne]
  simp only [Nat.sub_zero]
  have hp : hasHexPrefix (hex6Str n ++ rest) = false := by
    match hh : hex6Str n with
    | [] => exact absurd hh hne
    | [_] => rw [hh] at hl; simp at hl
    | a :: b :: t =>
      have := (hd b (by rw [hh]; simp)).notX (by omega)
      rw [List.cons_append, List.cons_append]
      unfold hasHexPrefix
      split
      · rename_i h; injection h with _ h; injection h with h _; exact absurd h this.1
      · rename_i h; injection h with _ h; injection h with h _; exact absurd h this.2
      · rfl
  rw [hp]
  simp only [Bool.and_false, Bool.false_eq_true, if_false]
  rw [startsDigit_digits (by omega) hd hne]
  have h6 : ((6 : Nat) == 0) = false := by decide
  rw [h6]
  simp only [Bool.not_true, Bool.or_self, Bool.false_eq_true, if_false]
  rw [show (6 : Nat) = (hex6Str n).length from hl.symm, takeDigits_exact 16 (by omega) _ _ hd, hex6Str_val]
  simp only [Bool.false_eq_true, if_false, Option.some.injEq, Prod.mk.injEq, and_true]
  exact i32_of_range (by omega) (by omega)

theorem scanLit_colon (s : CStr) : scanLit b!": " (b!": " ++ s) = some (scanWs s) := rfl
theorem scanLit_spcolon (s : CStr) : scanLit b!" : " (b!" : " ++ s) = some (scanWs s) := rfl

theorem scanWs_intStr (x : Int) (rest : CStr) : scanWs (intStr x ++ rest) = intStr x ++ rest := by
  unfold intStr
  split
  · rw [List.cons_append, scanWs_cons (by decide)]
  · exact scanWs_digits (by omega) (decStr_digits _) (decStr_ne_nil _)

theorem scanWs_decStr (n : Nat) (rest : CStr) : scanWs (decStr n ++ rest) = decStr n ++ rest :=
  scanWs_digits (by omega) (decStr_digits _) (decStr_ne_nil _)

theorem sysvReduce_lt (s : Nat) : sysvReduce s < 4294967296 := by
  unfold sysvReduce; simp only; omega

/-- One line of the header is read back. -/
theorem scanLine_headerLine (i size ck : Nat) (rest : CStr) (hi : i < 16777216)
    (hs : size < 18446744073709551616) (hc : ck < 4294967296) :
    scanLine (headerLine i size ck ++ rest) = some ((i : Int), size, ck, b!"\n" ++ rest) := by
  have a1 := scanPtrdiff_intStr size (h := hs)
  have a2 := scanWs_intStr (i64 size)
  have a3 := scanUInt_decStr ck (h := hc)
  have a4 := scanWs_decStr ck
  have a5 := scanUInt_decStr _ (h := sysvReduce_lt ck)
  have a6 := scanWs_decStr (sysvReduce ck)
  unfold scanLine headerLine
  simp only [List.append_assoc]
  generalize intStr (i64 size) = S at *
  generalize decStr (sysvReduce ck) = T at *
  generalize decStr ck = U at *
  rw [scanWs_digits (by omega) (hex6Str_digits i) (hex6Str_ne_nil i), scanHex6_hex6Str i _ hi]
  simp -implicitDefEqProofs only [Option.bind_eq_bind, Option.bind_some]
  rw [scanLit_colon, a2]
  simp -implicitDefEqProofs only [Option.bind_some]
  rw [a1 _ rfl]
  simp -implicitDefEqProofs only [Option.bind_some]
  rw [scanLit_spcolon, a4]
  simp -implicitDefEqProofs only [Option.bind_some]
  rw [a3 _ rfl]
  simp -implicitDefEqProofs only [Option.bind_some]
  rw [scanLit_spcolon, a6]
  simp -implicitDefEqProofs only [Option.bind_some]
  rw [a5 _ rfl]
  rfl

theorem scanLine_nl (s : CStr) : scanLine (10 :: s) = scanLine s := rfl

/-- All lines of the header are read back. -/
theorem scanLines_headerLines (nfile : Nat) (hn : nfile ≤ 16777216) : ∀ (ss cs : List Nat) (i : Nat)
    (pre pre2 zs1 zs2 : List Nat), ss.length = cs.length → i + ss.length = nfile →
    pre.length = i → pre2.length = i → zs1.length = ss.length → zs2.length = ss.length →
    (∀ x ∈ ss, x < 18446744073709551616) → (∀ x ∈ cs, x < 4294967296) →
    scanLines nfile ss.length (10 :: headerLines i ss cs) (pre ++ zs1) (pre2 ++ zs2) =
      .ok (pre ++ ss) (pre2 ++ cs) := by
  intro ss
  induction ss with
  | nil =>
    intro cs i pre pre2 zs1 zs2 h1 h2 h3 h4 h5 h6 _ _
    simp only [List.length_nil] at *
    have e1 : cs = [] := List.eq_nil_of_length_eq_zero h1.symm
    have e2 : zs1 = [] := List.eq_nil_of_length_eq_zero h5
    have e3 : zs2 = [] := List.eq_nil_of_length_eq_zero h6
    subst e1 e2 e3
    simp [scanLines]
  | cons s ss ih =>
    intro cs i pre pre2 zs1 zs2 h1 h2 h3 h4 h5 h6 hs hc
    cases cs with
    | nil => simp at h1
    | cons c cs =>
      cases zs1 with
      | nil => simp at h5
      | cons z zs1 =>
        cases zs2 with
        | nil => simp at h6
        | cons z2 zs2 =>
          simp only [List.length_cons] at *
          simp only [headerLines, scanLines]
          rw [scanLine_nl, scanLine_headerLine i s c _ (by omega) (hs s (by simp)) (hc c (by simp))]
          simp only
          rw [if_neg (by omega), if_neg (by simp only [List.length_append, List.length_cons]; omega)]
          simp only [Int.toNat_natCast]
          rw [List.set_append_right _ _ (by omega), List.set_append_right _ _ (by omega)]
          have e1 : i - pre.length = 0 := by omega
          have e2 : i - pre2.length = 0 := by omega
          rw [e1, e2]
          simp only [List.set_cons_zero]
          have := ih cs (i + 1) (pre ++ [s]) (pre2 ++ [c]) zs1 zs2 (by omega) (by omega)
            (by simp; omega) (by simp; omega) (by omega) (by omega)
            (fun x hx => hs x (by simp [hx])) (fun x hx => hc x (by simp [hx]))
          simp only [List.append_assoc, List.singleton_append] at this
          exact this

theorem takeWhile_all {α : Type} (p : α → Bool) (l : List α) (h : ∀ x ∈ l, p x = true) :
    l.takeWhile p = l := by
  induction l with
  | nil => rfl
  | cons a l ih => rw [List.takeWhile_cons, if_pos (h a (by simp)), ih (fun x hx => h x (by simp [hx]))]

theorem takeWhile_append_stop {α : Type} (p : α → Bool) (l : List α) (x : α) (r : List α)
    (h : ∀ x ∈ l, p x = true) (hx : p x = false) :
    (l ++ x :: r).takeWhile p = l ∧ (l ++ x :: r).dropWhile p = x :: r := by
  induction l with
  | nil => simp [List.takeWhile_cons, List.dropWhile_cons, hx]
  | cons a l ih =>
    have := ih (fun x hx => h x (by simp [hx]))
    simp [List.takeWhile_cons, List.dropWhile_cons, h a (by simp), this.1, this.2]

/-- Reading a header: everything but the lines of the files. -/
theorem parseHeader_prefix (bb : Block) (h : WideHeader bb) :
    parseHeader (headerText bb) =
      match scanLines bb.nfile bb.nfile (10 :: headerLines 0 bb.fsize bb.fchecksum)
        (List.replicate bb.nfile 0) (List.replicate bb.nfile 0) with
      | .err => .err
      | .ub => .ub
      | .ok fsize fck => .ok bb.dtype bb.nmemb bb.nfile fsize fck := by
  obtain ⟨⟨h1, h2, h3, h4⟩, h5, h6, h7, h8, h9, h10, h11⟩ := h
  unfold parseHeader headerText
  simp only [List.append_assoc]
  have e1 : ∀ s : CStr, scanLit b!" DTYPE: " (b!"DTYPE: " ++ s) = some (scanWs s) := fun _ => rfl
  rw [e1]
  simp only
  obtain ⟨c0, t0, hdt⟩ : ∃ c t, bb.dtype = c :: t := by
    cases hd : bb.dtype with
    | nil => exact absurd hd h1
    | cons c t => exact ⟨c, t, rfl⟩
  have hws : ∀ s, scanWs (bb.dtype ++ s) = bb.dtype ++ s := by
    intro s
    rw [hdt, List.cons_append, scanWs_cons (h3 c0 (by rw [hdt]; simp)).1]
  have e2 : ∀ s : CStr, scanStr (bb.dtype ++ 10 :: s) = some (bb.dtype, 10 :: s) := by
    intro s
    unfold scanStr
    rw [hws]
    obtain ⟨k1, k2⟩ := takeWhile_append_stop (fun c => !isSpace c) bb.dtype 10 s
      (fun x hx => by rw [(h3 x hx).1]; rfl) (by decide)
    dsimp only
    rw [k1, k2]
    have : bb.dtype.isEmpty = false := by rw [hdt]; rfl
    rw [this]
    rfl
  rw [hws]
  have e3 : ∀ s : CStr, b!"\nNMEMB: " ++ s = 10 :: (b!"NMEMB: " ++ s) := fun _ => rfl
  rw [e3, e2]
  simp only
  rw [if_neg (by omega)]
  have e4 : ∀ s : CStr, scanLit b!" NMEMB: " (10 :: (b!"NMEMB: " ++ s)) = some (scanWs s) := fun _ => rfl
  rw [e4, scanWs_intStr]
  simp only [Option.bind_eq_bind, Option.bind_some]
  have e5 : ∀ s : CStr, b!"\nNFILE: " ++ s = 10 :: (b!"NFILE: " ++ s) := fun _ => rfl
  rw [scanInt_intStr bb.nmemb _ (by omega) h6 (by rw [e5]; rfl)]
  simp only [Option.bind_some]
  have e6 : ∀ s : CStr, scanLit b!" NFILE: " (b!"\nNFILE: " ++ s) = some (scanWs s) := fun _ => rfl
  rw [e6, scanWs_intStr]
  simp only [Option.bind_some]
  rw [scanInt_intStr (bb.nfile : Int) _ (by omega) (by omega) rfl]
  simp only [Option.bind_some, Option.pure_def]
  rw [if_neg (by omega), if_neg (by omega)]
  rw [takeWhile_all _ _ (fun x hx => by simpa using (h3 x hx).2), h4]
  simp only [Bool.not_true, Bool.false_eq_true, if_false, Int.toNat_natCast]
  rfl

/-- **The header is read back.** -/
theorem parseHeader_headerText (bb : Block) (h : GoodHeader bb) :
    parseHeader (headerText bb) = .ok bb.dtype bb.nmemb bb.nfile bb.fsize bb.fchecksum := by
  have hw : WideHeader bb := ⟨h.dt, h.nmemb0, h.nmembMax, h.nfile, h.nck, by have := h.nfileMax; omega, h.sizes, h.cks⟩
  rw [parseHeader_prefix bb hw]
  have h7 := h.nfile
  have h8 := h.nck
  have := scanLines_headerLines bb.nfile h.nfileMax bb.fsize bb.fchecksum 0 [] []
    (List.replicate bb.nfile 0) (List.replicate bb.nfile 0) (by omega) (by omega) rfl rfl
    (by simp; omega) (by simp; omega) h.sizes h.cks
  simp only [List.nil_append] at this
  rw [h7] at this
  rw [this]

/-- The line of file number 16^6 is not readable: the index has seven digits. -/
theorem scanLine_seven (size ck : Nat) (rest : CStr) :
    scanLine (headerLine 16777216 size ck ++ rest) = none := by
  unfold headerLine
  have : hex6Str 16777216 = b!"1000000" := by decide
  rw [this]
  rfl

/-- With more than 16^6 files the header cannot be read. -/
theorem scanLines_tooMany (nfile : Nat) : ∀ (ss cs : List Nat) (i : Nat) (zs1 zs2 : List Nat),
    ss.length = cs.length → i ≤ 16777216 → 16777216 < i + ss.length → i + ss.length = nfile →
    zs1.length = nfile → zs2.length = nfile →
    (∀ x ∈ ss, x < 18446744073709551616) → (∀ x ∈ cs, x < 4294967296) →
    scanLines nfile ss.length (10 :: headerLines i ss cs) zs1 zs2 = .err := by
  intro ss
  induction ss with
  | nil => intro cs i zs1 zs2 _ h2 h3; simp at h3; omega
  | cons s ss ih =>
    intro cs i zs1 zs2 h1 h2 h3 h4 h5 h6 hs hc
    cases cs with
    | nil => simp at h1
    | cons c cs =>
      simp only [List.length_cons] at *
      simp only [headerLines, scanLines]
      rw [scanLine_nl]
      by_cases hi : i = 16777216
      · subst hi
        rw [scanLine_seven]
      · rw [scanLine_headerLine i s c _ (by omega) (hs s (by simp)) (hc c (by simp))]
        simp only
        rw [if_neg (by omega), if_neg (by omega)]
        exact ih cs (i + 1) _ _ (by omega) (by omega) (by omega) (by omega)
          (by simpa using h5) (by simpa using h6)
          (fun x hx => hs x (by simp [hx])) (fun x hx => hc x (by simp [hx]))

theorem parseHeader_tooMany (bb : Block) (h : WideHeader bb) (hn : 16777216 < bb.nfile) :
    parseHeader (headerText bb) = .err := by
  rw [parseHeader_prefix bb h]
  have h7 := h.nfile
  have h8 := h.nck
  have := scanLines_tooMany bb.nfile bb.fsize bb.fchecksum 0 (List.replicate bb.nfile 0)
    (List.replicate bb.nfile 0) (by omega) (by omega) (by omega) (by omega) (by simp) (by simp) h.sizes h.cks
  rw [h7] at this
  rw [this]

/-- Running sums without overflow. -/
theorem runningSums_eq (fsize : List Nat) : ∀ s, s + fsize.sum < 18446744073709551616 →
    runningSums s fsize = (List.range (fsize.length + 1)).map (fun f => s + (fsize.take f).sum) := by
  induction fsize with
  | nil => intro s _; simp [runningSums]
  | cons a l ih =>
    intro s h
    simp only [List.sum_cons] at h
    simp only [runningSums]
    rw [u64_of_nat (by omega), ih (s + a) (by omega)]
    rw [List.length_cons, List.range_succ_eq_map (n := l.length + 1), List.map_cons, List.map_map]
    simp only [List.take_zero, List.sum_nil, Nat.add_zero, List.cons.injEq, true_and]
    apply List.map_congr_left
    intro f _
    simp only [Function.comp, Nat.succ_eq_add_one, List.take_succ_cons, List.sum_cons]
    omega

theorem runningSums_last (fsize : List Nat) (h : fsize.sum < 18446744073709551616) :
    (runningSums 0 fsize).getLastD 0 = fsize.sum := by
  rw [runningSums_eq fsize 0 (by omega)]
  rw [List.range_succ, List.map_append]
  simp [List.take_length]

theorem runningSums_length (s : Nat) (l : List Nat) : (runningSums s l).length = l.length + 1 := by
  induction l generalizing s with
  | nil => rfl
  | cons a l ih => simp [runningSums, ih]

end Verif
