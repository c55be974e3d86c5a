import Verif.Proof.Header
/-!
# Headers that are cut short

A scanner that leaves something over on a text does the same on every longer text.
-/

set_option autoImplicit false

namespace Verif

theorem scanWs_more {a : CStr} (b : CStr) (h : scanWs a ≠ []) : scanWs (a ++ b) = scanWs a ++ b := by
  unfold scanWs at *
  induction a with
  | nil => exact absurd rfl h
  | cons c a ih =>
    rw [List.cons_append, List.dropWhile_cons, List.dropWhile_cons]
    rw [List.dropWhile_cons] at h
    split
    · rename_i hc
      rw [if_pos hc] at h
      exact ih h
    · rfl

theorem scanLit_more : ∀ (l : CStr) {a r : CStr} (b : CStr), scanLit l a = some r → r ≠ [] → scanLit l (a ++ b) = some (r ++ b)
  | [], a, r, b, h, _ => by
    injection h with h
    rw [h]
    rfl
  | f :: fs, a, r, b, h, hr => by
    unfold scanLit at h ⊢
    split
    · rename_i hf
      rw [if_pos hf] at h
      have hne : scanWs a ≠ [] ∨ ∀ x, scanLit fs [] = some x → x = [] := by
        by_cases he : scanWs a = []
        · right
          have aux : ∀ (l : CStr) x, scanLit l [] = some x → x = [] := by
            intro l
            induction l with
            | nil => intro x hx; injection hx with hx; exact hx.symm
            | cons g l ih =>
              intro x hx
              unfold scanLit at hx
              split at hx
              · exact ih x hx
              · cases hx
          exact aux fs
        · exact Or.inl he
      rcases hne with hne | hne
      · rw [scanWs_more b hne]
        exact scanLit_more fs b h hr
      · by_cases he : scanWs a = []
        · rw [he] at h
          exact absurd (hne _ h) hr
        · rw [scanWs_more b he]
          exact scanLit_more fs b h hr
    · rename_i hf
      rw [if_neg hf] at h
      cases a with
      | nil => cases h
      | cons c s =>
        rw [List.cons_append]
        dsimp only at h ⊢
        split
        · rename_i hc
          rw [if_pos hc] at h
          exact scanLit_more fs b h hr
        · rename_i hc
          rw [if_neg hc] at h
          cases h

theorem dropWhile_more {α : Type} (p : α → Bool) {a : List α} (b : List α) (h : a.dropWhile p ≠ []) :
    (a ++ b).dropWhile p = a.dropWhile p ++ b ∧ (a ++ b).takeWhile p = a.takeWhile p := by
  induction a with
  | nil => exact absurd rfl h
  | cons c a ih =>
    rw [List.cons_append, List.dropWhile_cons, List.dropWhile_cons, List.takeWhile_cons, List.takeWhile_cons]
    rw [List.dropWhile_cons] at h
    split
    · rename_i hc
      rw [if_pos hc] at h
      rw [(ih h).1, (ih h).2]
      exact ⟨rfl, rfl⟩
    · exact ⟨rfl, rfl⟩

theorem scanStr_more {a tok r : CStr} (b : CStr) (h : scanStr a = some (tok, r)) (hr : r ≠ []) :
    scanStr (a ++ b) = some (tok, r ++ b) := by
  unfold scanStr at h ⊢
  dsimp only at h ⊢
  split at h
  · cases h
  · rename_i ht
    injection h with h
    injection h with h1 h2
    have hws : scanWs a ≠ [] := by intro he; rw [he] at h2; exact hr h2.symm
    rw [scanWs_more b hws]
    obtain ⟨k1, k2⟩ := dropWhile_more (fun c => !isSpace c) b (by rw [h2]; exact hr)
    rw [k1, k2, if_neg ht, h1, h2]

theorem takeDigits_more (base : Nat) : ∀ (w w' acc : Nat) (a b : CStr), (takeDigits base w acc a).2 ≠ [] →
    (w' = w ∨ a.length ≤ w ∧ w ≤ w') →
    takeDigits base w' acc (a ++ b) = ((takeDigits base w acc a).1, (takeDigits base w acc a).2 ++ b) := by
  intro w
  induction w with
  | zero =>
    intro w' acc a b hr hw
    rcases hw with hw | hw
    · rw [hw]; rfl
    · have : a = [] := List.length_eq_zero_iff.mp (by omega)
      rw [this] at hr
      exact absurd rfl hr
  | succ w ih =>
    intro w' acc a b hr hw
    cases a with
    | nil => exact absurd rfl hr
    | cons c a =>
      obtain ⟨w'', rfl⟩ : ∃ w'', w' = w'' + 1 := ⟨w' - 1, by rcases hw with hw | hw <;> omega⟩
      rw [List.cons_append]
      unfold takeDigits at hr ⊢
      revert hr
      cases digitVal c with
      | none => intro _; rfl
      | some d =>
        intro hr
        dsimp only at hr ⊢
        by_cases hd : d < base
        · rw [if_pos hd] at hr ⊢
          rw [if_pos hd]
          exact ih w'' _ a b hr (by
            rcases hw with hw | hw
            · exact Or.inl (by omega)
            · exact Or.inr ⟨by have := hw.1; simp at this; omega, by omega⟩)
        · rw [if_neg hd] at hr ⊢
          rw [if_neg hd]
          rfl

theorem startsDigit_more {base : Nat} {a : CStr} (b : CStr) (h : startsDigit base a = true) : startsDigit base (a ++ b) = true := by
  cases a with
  | nil => cases h
  | cons c a => exact h

theorem takeSign_more {a : CStr} (b : CStr) (h : a ≠ []) :
    takeSign (a ++ b) = ((takeSign a).1, (takeSign a).2.1, (takeSign a).2.2 ++ b) := by
  cases a with
  | nil => exact absurd rfl h
  | cons c a =>
    rw [List.cons_append]
    by_cases h1 : c = 45
    · subst h1; rfl
    · by_cases h2 : c = 43
      · subst h2; rfl
      · have key : ∀ t, takeSign (c :: t) = (false, 0, c :: t) := by
          intro t
          unfold takeSign
          split <;> rename_i heq
          · injection heq with h3; exact absurd h3 h1
          · injection heq with h3; exact absurd h3 h2
          · rfl
        rw [key, key]
        rfl

theorem hasHexPrefix_more (c d : Byte) (a b : CStr) : hasHexPrefix (c :: d :: a ++ b) = hasHexPrefix (c :: d :: a) := by
  simp only [List.cons_append]
  by_cases h1 : c = 48
  · subst h1
    by_cases h2 : d = 120
    · subst h2; rfl
    · by_cases h3 : d = 88
      · subst h3; rfl
      · have key : ∀ t, hasHexPrefix (48 :: d :: t) = false := by
          intro t
          unfold hasHexPrefix
          split <;> rename_i heq
          · injection heq with _ heq; injection heq with h4; exact absurd h4 h2
          · injection heq with _ heq; injection heq with h4; exact absurd h4 h3
          · rfl
        rw [key, key]
  · have key : ∀ t, hasHexPrefix (c :: t) = false := by
      intro t
      unfold hasHexPrefix
      split <;> rename_i heq
      · injection heq with h4; exact absurd h4 h1
      · injection heq with h4; exact absurd h4 h1
      · rfl
    rw [key, key]

theorem takeSign_length (a : CStr) : (takeSign a).2.2.length + (takeSign a).2.1 = a.length := by
  unfold takeSign
  split <;> simp

/-- The digits of a number, after the sign. -/
def numTail (base w : Nat) (neg : Bool) (y : CStr) : Option (Bool × Nat × CStr) :=
  let hexPrefix : Bool := base == 16 && decide (2 ≤ w) && hasHexPrefix y
  let (w, y) := if hexPrefix then (w - 2, y.drop 2) else (w, y)
  if w == 0 || !startsDigit base y then none
  else
    let (v, rest) := takeDigits base w 0 y
    some (neg, v, rest)

theorem scanNum_tail (base w : Nat) (a : CStr) :
    scanNum base w a = numTail base (w - (takeSign (scanWs a)).2.1) (takeSign (scanWs a)).1 (takeSign (scanWs a)).2.2 := rfl

/-- The digits themselves. -/
def digitsTail (base w : Nat) (neg : Bool) (y : CStr) : Option (Bool × Nat × CStr) :=
  if w == 0 || !startsDigit base y then none
  else some (neg, (takeDigits base w 0 y).1, (takeDigits base w 0 y).2)

theorem numTail_plain (base w : Nat) (neg : Bool) (y : CStr) (h : (base == 16 && decide (2 ≤ w) && hasHexPrefix y) = false) :
    numTail base w neg y = digitsTail base w neg y := by
  unfold numTail
  rw [h]
  rfl

theorem numTail_hex (base w : Nat) (neg : Bool) (y : CStr) (h : (base == 16 && decide (2 ≤ w) && hasHexPrefix y) = true) :
    numTail base w neg y = digitsTail base (w - 2) neg (y.drop 2) := by
  unfold numTail
  rw [h]
  rfl

theorem digitsTail_eq {base w : Nat} {neg : Bool} {y : CStr} {x : Bool × Nat × CStr} (h : digitsTail base w neg y = some x) :
    w ≠ 0 ∧ startsDigit base y = true ∧ x = (neg, takeDigits base w 0 y) := by
  unfold digitsTail at h
  split at h
  · cases h
  · rename_i hc
    simp only [Bool.or_eq_true, beq_iff_eq, Bool.not_eq_true', not_or, Bool.not_eq_false] at hc
    injection h with h
    exact ⟨hc.1, hc.2, h.symm⟩

theorem digitsTail_of {base w : Nat} (neg : Bool) {y : CStr} (h1 : w ≠ 0) (h2 : startsDigit base y = true) :
    digitsTail base w neg y = some (neg, takeDigits base w 0 y) := by
  unfold digitsTail
  rw [if_neg (by simp [h1, h2])]

theorem numTail_nil (base w : Nat) (neg : Bool) : numTail base w neg [] = none := by
  have : hasHexPrefix [] = false := rfl
  rw [numTail_plain _ _ _ _ (by rw [this, Bool.and_false])]
  unfold digitsTail
  rw [if_pos (by simp [startsDigit])]

theorem takeDigits_one {base w : Nat} {c : Byte} (hw : w ≠ 0) (h : startsDigit base [c] = true) (acc : Nat) :
    (takeDigits base w acc [c]).2 = [] := by
  obtain ⟨w, rfl⟩ : ∃ k, w = k + 1 := ⟨w - 1, by omega⟩
  unfold startsDigit at h
  dsimp only at h
  unfold takeDigits
  cases hd : digitVal c with
  | none => rw [hd] at h; cases h
  | some d =>
    rw [hd] at h
    dsimp only at h ⊢
    rw [if_pos (by simpa using h)]
    cases w <;> rfl

theorem digitsTail_more {base w : Nat} (w' : Nat) {neg : Bool} {y : CStr} (b : CStr) {n : Bool} {v : Nat} {r : CStr}
    (h : digitsTail base w neg y = some (n, v, r)) (hr : r ≠ []) (hw : w' = w ∨ y.length ≤ w ∧ w ≤ w') :
    digitsTail base w' neg (y ++ b) = some (n, v, r ++ b) := by
  obtain ⟨h1, h2, h3⟩ := digitsTail_eq h
  injection h3 with h3 h4
  rw [digitsTail_of neg (by rcases hw with hw | hw <;> omega) (startsDigit_more b h2)]
  have h5 : (takeDigits base w 0 y).2 = r := by rw [← h4]
  rw [takeDigits_more base w w' 0 y b (by rw [h5]; exact hr) hw, ← h4, h3]

theorem numTail_more {base w : Nat} (w' : Nat) {neg : Bool} {y : CStr} (b : CStr) {n : Bool} {v : Nat} {r : CStr}
    (h : numTail base w neg y = some (n, v, r)) (hr : r ≠ []) (hw : w' = w ∨ base ≠ 16 ∧ y.length ≤ w ∧ w ≤ w') :
    numTail base w' neg (y ++ b) = some (n, v, r ++ b) := by
  by_cases hx : base = 16
  · rcases hw with hw | hw
    · subst hw
      -- at least two characters
      match y, h with
      | [], h => rw [numTail_nil] at h; cases h
      | [c], h =>
        exfalso
        have : hasHexPrefix [c] = false := by
          unfold hasHexPrefix
          split <;> rename_i heq
          · injection heq with _ heq; cases heq
          · injection heq with _ heq; cases heq
          · rfl
        rw [numTail_plain _ _ _ _ (by rw [this, Bool.and_false])] at h
        obtain ⟨h1, h2, h3⟩ := digitsTail_eq h
        injection h3 with h3 h4
        have h5 := takeDigits_one h1 h2 0
        rw [← h4] at h5
        exact hr h5
      | c :: d :: y, h =>
        have e := hasHexPrefix_more c d y b
        by_cases hc : (base == 16 && decide (2 ≤ w') && hasHexPrefix (c :: d :: y)) = true
        · rw [numTail_hex _ _ _ _ hc] at h
          rw [numTail_hex _ _ _ _ (by rw [e]; exact hc)]
          exact digitsTail_more _ b h hr (Or.inl rfl)
        · rw [numTail_plain _ _ _ _ (by simpa using hc)] at h
          rw [numTail_plain _ _ _ _ (by rw [e]; simpa using hc)]
          exact digitsTail_more _ b h hr (Or.inl rfl)
    · exact absurd hx hw.1
  · have : (base == 16) = false := by simpa using hx
    rw [numTail_plain _ _ _ _ (by rw [this]; rfl)] at h ⊢
    exact digitsTail_more w' b h hr (by
      rcases hw with hw | hw
      · exact Or.inl hw
      · exact Or.inr hw.2)

theorem scanWs_length (a : CStr) : (scanWs a).length ≤ a.length := by
  unfold scanWs
  exact (List.dropWhile_sublist _).length_le

theorem scanNum_more {base w : Nat} (w' : Nat) {a : CStr} (b : CStr) {neg : Bool} {v : Nat} {r : CStr}
    (h : scanNum base w a = some (neg, v, r)) (hr : r ≠ []) (hw : w' = w ∨ base ≠ 16 ∧ a.length ≤ w ∧ w ≤ w') :
    scanNum base w' (a ++ b) = some (neg, v, r ++ b) := by
  rw [scanNum_tail] at h ⊢
  have hne : scanWs a ≠ [] := by
    intro he
    rw [he] at h
    have : takeSign ([] : CStr) = (false, 0, []) := rfl
    rw [this, numTail_nil] at h
    cases h
  have hl := scanWs_length a
  have hl2 := takeSign_length (scanWs a)
  rw [scanWs_more b hne, takeSign_more b hne]
  dsimp only
  refine numTail_more _ b h hr ?_
  rcases hw with hw | ⟨h1, h2, h3⟩
  · exact Or.inl (by rw [hw])
  · exact Or.inr ⟨h1, by omega, by omega⟩

theorem scanInt_more {a r : CStr} (b : CStr) {v : Int} (h : scanInt a = some (v, r)) (hr : r ≠ []) :
    scanInt (a ++ b) = some (v, r ++ b) := by
  unfold scanInt at h ⊢
  split at h
  · rename_i neg x rest heq
    injection h with h
    injection h with h1 h2
    subst h2
    rw [scanNum_more _ b heq hr (Or.inr ⟨by omega, by omega, by simp⟩)]
    dsimp only
    rw [h1]
  · cases h

theorem scanPtrdiff_more {a r : CStr} (b : CStr) {v : Nat} (h : scanPtrdiff a = some (v, r)) (hr : r ≠ []) :
    scanPtrdiff (a ++ b) = some (v, r ++ b) := by
  unfold scanPtrdiff at h ⊢
  split at h
  · rename_i neg x rest heq
    injection h with h
    injection h with h1 h2
    subst h2
    rw [scanNum_more _ b heq hr (Or.inr ⟨by omega, by omega, by simp⟩)]
    dsimp only
    rw [h1]
  · cases h

theorem scanUInt_more {a r : CStr} (b : CStr) {v : Nat} (h : scanUInt a = some (v, r)) (hr : r ≠ []) :
    scanUInt (a ++ b) = some (v, r ++ b) := by
  unfold scanUInt at h ⊢
  split at h
  · rename_i neg x rest heq
    injection h with h
    injection h with h1 h2
    subst h2
    rw [scanNum_more _ b heq hr (Or.inr ⟨by omega, by omega, by simp⟩)]
    dsimp only
    rw [← h1]
  · cases h

theorem scanHex6_more {a r : CStr} (b : CStr) {v : Int} (h : scanHex6 a = some (v, r)) (hr : r ≠ []) :
    scanHex6 (a ++ b) = some (v, r ++ b) := by
  unfold scanHex6 at h ⊢
  split at h
  · rename_i neg x rest heq
    injection h with h
    injection h with h1 h2
    subst h2
    rw [scanNum_more _ b heq hr (Or.inl rfl)]
    dsimp only
    rw [h1]
  · cases h

/-- A number is still a number when more follows. -/
theorem scanUInt_some {a r : CStr} (b : CStr) {v : Nat} (h : scanUInt a = some (v, r)) : ∃ v' r', scanUInt (a ++ b) = some (v', r') := by
  by_cases hr : r = []
  · unfold scanUInt at h ⊢
    split at h
    · rename_i neg x rest heq
      rw [scanNum_tail] at heq ⊢
      have hne : scanWs a ≠ [] := by
        intro he
        rw [he] at heq
        have : takeSign ([] : CStr) = (false, 0, []) := rfl
        rw [this, numTail_nil] at heq
        cases heq
      have hl2 := takeSign_length (scanWs a)
      have hl := scanWs_length a
      rw [scanWs_more b hne, takeSign_more b hne]
      dsimp only
      generalize takeSign (scanWs a) = t at *
      obtain ⟨ng, k, y⟩ := t
      dsimp only at *
      rw [numTail_plain _ _ _ _ rfl] at heq ⊢
      obtain ⟨h1, h2, h3⟩ := digitsTail_eq heq
      rw [digitsTail_of ng (by simp only [List.length_append]; omega) (startsDigit_more b h2)]
      exact ⟨_, _, rfl⟩
    · cases h
  · exact ⟨v, r ++ b, scanUInt_more b h hr⟩

theorem scanWs_nil : scanWs ([] : CStr) = [] := rfl
theorem scanNum_nil (base w : Nat) : scanNum base w [] = none := by
  rw [scanNum_tail, scanWs_nil]
  exact numTail_nil _ _ _

theorem scanInt_nil : scanInt [] = none := by unfold scanInt; rw [scanNum_nil]
theorem scanPtrdiff_nil : scanPtrdiff [] = none := by unfold scanPtrdiff; rw [scanNum_nil]
theorem scanUInt_nil : scanUInt [] = none := by unfold scanUInt; rw [scanNum_nil]
theorem scanHex6_nil : scanHex6 [] = none := by unfold scanHex6; rw [scanNum_nil]

/-- A line that is read from the beginning of a text is read in the same way from the whole text. -/
theorem scanLine_more {a r : CStr} (b : CStr) {fid : Int} {size ck : Nat} (h : scanLine a = some (fid, size, ck, r)) :
    ∃ r', scanLine (a ++ b) = some (fid, size, ck, r') ∧ (r ≠ [] → r' = r ++ b) := by
  unfold scanLine at h ⊢
  simp only [Option.bind_eq_bind, Option.pure_def, Option.bind_eq_some_iff] at h
  obtain ⟨⟨f, s1⟩, h1, s2, h2, ⟨sz, s3⟩, h3, s4, h4, ⟨c, s5⟩, h5, s6, h6, ⟨y, s7⟩, h7, h8⟩ := h
  injection h8 with h8
  injection h8 with e1 h8
  injection h8 with e2 h8
  injection h8 with e3 e4
  dsimp only at *
  subst e1 e2 e3 e4
  have n0 : scanWs a ≠ [] := by intro he; rw [he, scanHex6_nil] at h1; cases h1
  have n1 : s1 ≠ [] := by intro he; rw [he] at h2; cases h2
  have n2 : s2 ≠ [] := by intro he; rw [he, scanPtrdiff_nil] at h3; cases h3
  have n3 : s3 ≠ [] := by intro he; rw [he] at h4; cases h4
  have n4 : s4 ≠ [] := by intro he; rw [he, scanUInt_nil] at h5; cases h5
  have n5 : s5 ≠ [] := by intro he; rw [he] at h6; cases h6
  have n6 : s6 ≠ [] := by intro he; rw [he, scanUInt_nil] at h7; cases h7
  obtain ⟨y', r', h9⟩ := scanUInt_some b h7
  refine ⟨r', ?_, ?_⟩
  · rw [scanWs_more b n0, scanHex6_more b h1 n1]
    simp only [Option.bind_eq_bind, Option.bind_some]
    rw [scanLit_more _ b h2 n2]
    simp only [Option.bind_some]
    rw [scanPtrdiff_more b h3 n3]
    simp only [Option.bind_some]
    rw [scanLit_more _ b h4 n4]
    simp only [Option.bind_some]
    rw [scanUInt_more b h5 n5]
    simp only [Option.bind_some]
    rw [scanLit_more _ b h6 n6]
    simp only [Option.bind_some]
    rw [h9]
    rfl
  · intro hr
    rw [scanUInt_more b h7 hr] at h9
    injection h9 with h9
    injection h9 with _ h9
    exact h9.symm

theorem scanLine_nil : scanLine [] = none := rfl

theorem scanLines_more (nfile : Nat) : ∀ (n : Nat) (a b : CStr) (F C F' C' : List Nat), scanLines nfile n a F C = .ok F' C' →
    scanLines nfile n (a ++ b) F C = .ok F' C' := by
  intro n
  induction n with
  | zero => intro a b F C F' C' h; exact h
  | succ n ih =>
    intro a b F C F' C' h
    unfold scanLines at h ⊢
    cases hl : scanLine a with
    | none => rw [hl] at h; cases h
    | some x =>
      obtain ⟨fid, size, ck, r⟩ := x
      rw [hl] at h
      dsimp only at h
      obtain ⟨r', h1, h2⟩ := scanLine_more b hl
      rw [h1]
      dsimp only
      split
      · rename_i hc; rw [if_pos hc] at h; cases h
      · rename_i hc
        rw [if_neg hc] at h
        split
        · rename_i hc; rw [if_pos hc] at h; cases h
        · rename_i hc
          rw [if_neg hc] at h
          cases n with
          | zero => exact h
          | succ n =>
            have hr : r ≠ [] := by
              intro he
              rw [he] at h
              unfold scanLines at h
              rw [scanLine_nil] at h
              cases h
            rw [h2 hr]
            exact ih r b _ _ _ _ h

/-! ## The beginning of a header -/

/-- The text after `NFILE:`, with the dtype and the members before it. -/
def headerStart (txt : CStr) : Option (CStr × Int × CStr) := do
  let s ← scanLit b!" DTYPE: " txt
  let (tok, s) ← scanStr s
  let s ← scanLit b!" NMEMB: " s
  let (nmemb, s) ← scanInt s
  let s ← scanLit b!" NFILE: " s
  pure (tok, nmemb, s)

theorem headerStart_more {a tok s : CStr} (b : CStr) {nm : Int} (h : headerStart a = some (tok, nm, s)) (hs : s ≠ []) :
    headerStart (a ++ b) = some (tok, nm, s ++ b) := by
  unfold headerStart at h ⊢
  simp only [Option.bind_eq_bind, Option.pure_def, Option.bind_eq_some_iff] at h
  obtain ⟨s1, h1, ⟨t, s2⟩, h2, s3, h3, ⟨n, s4⟩, h4, s5, h5, h6⟩ := h
  injection h6 with h6
  injection h6 with e1 h6
  injection h6 with e2 e3
  dsimp only at *
  subst e1 e2 e3
  have n1 : s1 ≠ [] := by intro he; rw [he] at h2; cases h2
  have n2 : s2 ≠ [] := by intro he; rw [he] at h3; cases h3
  have n3 : s3 ≠ [] := by intro he; rw [he, scanInt_nil] at h4; cases h4
  have n4 : s4 ≠ [] := by intro he; rw [he] at h5; cases h5
  rw [scanLit_more _ b h1 n1]
  simp only [Option.bind_eq_bind, Option.bind_some]
  rw [scanStr_more b h2 n2]
  simp only [Option.bind_some]
  rw [scanLit_more _ b h3 n3]
  simp only [Option.bind_some]
  rw [scanInt_more b h4 n4]
  simp only [Option.bind_some]
  rw [scanLit_more _ b h5 hs]
  rfl

/-- What is made of the rest. -/
def headerEnd (tok : CStr) (nmemb : Int) (s : CStr) : HeaderRes :=
  match scanInt s with
  | none => .err
  | some (nfile, s) =>
    if nfile < 0 ∨ nfile ≥ 2147483647 - 1 then .err
    else if nmemb < 0 then .err
    else if !dtypeIsValid (tok.takeWhile (· ≠ 0)) then .err
    else
      match scanLines nfile.toNat nfile.toNat s (List.replicate nfile.toNat 0) (List.replicate nfile.toNat 0) with
      | .err => .err
      | .ub => .ub
      | .ok fsize fck => .ok (tok.takeWhile (· ≠ 0)) nmemb nfile.toNat fsize fck

theorem parseHeader_start {txt tok s : CStr} {nm : Int} (h : headerStart txt = some (tok, nm, s)) (ht : tok.length < 8) :
    parseHeader txt = headerEnd tok nm s := by
  unfold headerStart at h
  simp only [Option.bind_eq_bind, Option.pure_def, Option.bind_eq_some_iff] at h
  obtain ⟨s1, h1, ⟨t, s2⟩, h2, s3, h3, ⟨n, s4⟩, h4, s5, h5, h6⟩ := h
  injection h6 with h6
  injection h6 with e1 h6
  injection h6 with e2 e3
  dsimp only at *
  subst e1 e2 e3
  unfold parseHeader headerEnd
  rw [h1]
  dsimp only
  rw [h2]
  dsimp only
  rw [if_neg (by omega), h3]
  simp only [Option.bind_eq_bind, Option.bind_some]
  rw [h4]
  simp only [Option.bind_some]
  rw [h5]
  simp only [Option.bind_some]
  cases hi : scanInt s5 with
  | none => rfl
  | some x => rfl

theorem parseHeader_started {txt dt : CStr} {nm : Int} {nf : Nat} {F C : List Nat} (h : parseHeader txt = .ok dt nm nf F C) :
    ∃ tok s, headerStart txt = some (tok, nm, s) ∧ tok.length < 8 := by
  unfold parseHeader at h
  unfold headerStart
  cases h1 : scanLit b!" DTYPE: " txt with
  | none => rw [h1] at h; cases h
  | some s1 =>
    rw [h1] at h
    dsimp only at h
    simp only [Option.bind_eq_bind, Option.bind_some]
    cases h2 : scanStr s1 with
    | none => rw [h2] at h; cases h
    | some x =>
      obtain ⟨tok, s2⟩ := x
      rw [h2] at h
      dsimp only at h
      simp only [Option.bind_some]
      split at h
      · cases h
      · rename_i hl
        cases h3 : scanLit b!" NMEMB: " s2 with
        | none => rw [h3] at h; cases h
        | some s3 =>
          rw [h3] at h
          simp only [Option.bind_eq_bind, Option.bind_some] at h ⊢
          cases h4 : scanInt s3 with
          | none => rw [h4] at h; cases h
          | some y =>
            obtain ⟨n, s4⟩ := y
            rw [h4] at h
            simp only [Option.bind_some] at h ⊢
            cases h5 : scanLit b!" NFILE: " s4 with
            | none => rw [h5] at h; cases h
            | some s5 =>
              rw [h5] at h
              simp only [Option.bind_some] at h ⊢
              refine ⟨tok, s5, ?_, by omega⟩
              cases h6 : scanInt s5 with
              | none => rw [h6] at h; cases h
              | some z =>
                rw [h6] at h
                simp only [Option.bind_some, Option.pure_def] at h
                split at h
                · cases h
                · split at h
                  · cases h
                  · split at h
                    · cases h
                    · split at h
                      · cases h
                      · cases h
                      · injection h with _ h _ _ _
                        rw [h]
                        rfl

/-- The beginning of a text that is accepted as a header: the whole text says the same, unless the beginning ends in the
middle of the number of files and has none. -/
theorem parseHeader_more {a dt : CStr} (b : CStr) {nm : Int} {nf : Nat} {F C : List Nat} (h : parseHeader a = .ok dt nm nf F C) :
    parseHeader (a ++ b) = .ok dt nm nf F C ∨
      ∃ tok s, headerStart a = some (tok, nm, s) ∧ s ≠ [] ∧ tok.takeWhile (· ≠ 0) = dt ∧ tok.length < 8 ∧ scanInt s = some (0, []) ∧
        nf = 0 ∧ F = [] ∧ C = [] := by
  obtain ⟨tok, s, h1, h2⟩ := parseHeader_started h
  rw [parseHeader_start h1 h2] at h
  have hs : s ≠ [] := by
    intro he
    unfold headerEnd at h
    rw [he, scanInt_nil] at h
    cases h
  rw [parseHeader_start (headerStart_more b h1 hs) h2]
  unfold headerEnd at h ⊢
  cases h3 : scanInt s with
  | none => rw [h3] at h; cases h
  | some x =>
    obtain ⟨nfile, r⟩ := x
    rw [h3] at h
    dsimp only at h
    split at h
    · cases h
    · rename_i c1
      split at h
      · cases h
      · rename_i c2
        split at h
        · cases h
        · rename_i c3
          split at h
          · cases h
          · cases h
          · rename_i F1 C1 hl
            injection h with e1 _ e2 e3 e4
            subst e1 e2 e3 e4
            by_cases hr : r = []
            · right
              have hz : nfile = 0 := by
                by_cases hz : nfile = 0
                · exact hz
                · exfalso
                  obtain ⟨k, hk⟩ : ∃ k, nfile.toNat = k + 1 := ⟨nfile.toNat - 1, by omega⟩
                  rw [hk, hr] at hl
                  unfold scanLines at hl
                  rw [scanLine_nil] at hl
                  cases hl
              subst hz hr
              injection hl with g1 g2
              exact ⟨tok, s, h1, hs, rfl, h2, h3, rfl, g1.symm, g2.symm⟩
            · left
              rw [scanInt_more b h3 hr]
              dsimp only
              rw [if_neg c1, if_neg c2, if_neg c3, scanLines_more _ _ _ b _ _ _ _ hl]

/-! ## The header that the library writes -/

theorem digitsAux_fuel (b : Nat) (hb : 2 ≤ b) : ∀ (f g n : Nat), n ≤ f → n ≤ g → digitsAux b f n = digitsAux b g n := by
  intro f
  induction f with
  | zero =>
    intro g n h1 _
    have : n = 0 := by omega
    subst this
    cases g with
    | zero => rfl
    | succ g =>
      unfold digitsAux
      rw [if_pos (by omega), Nat.zero_mod]
  | succ f ih =>
    intro g n h1 h2
    cases g with
    | zero =>
      have : n = 0 := by omega
      subst this
      unfold digitsAux
      rw [if_pos (by omega), Nat.zero_mod]
    | succ g =>
      unfold digitsAux
      split
      · rfl
      · rename_i hn
        have : n / b < n := Nat.div_lt_self (by omega) (by omega)
        rw [ih g (n / b) (by omega) (by omega)]

theorem decStr_step (n : Nat) (h : 10 ≤ n) : decStr n = decStr (n / 10) ++ [digitChar (n % 10)] := by
  unfold decStr
  obtain ⟨k, rfl⟩ : ∃ k, n = k + 1 := ⟨n - 1, by omega⟩
  rw [digitsAux, if_neg (by omega)]
  congr 1
  exact digitsAux_fuel 10 (by omega) _ _ _ (by omega) (by omega)

/-- The first digits of a number are a number, and not zero. -/
theorem decStr_prefix : ∀ (n : Nat) (p : CStr), 0 < n → p <+: decStr n → p ≠ [] → ∃ m, 0 < m ∧ m ≤ n ∧ p = decStr m := by
  intro n
  induction n using Nat.strongRecOn with
  | ind n ih =>
    intro p hn hp hne
    by_cases h : 10 ≤ n
    · rw [decStr_step n h] at hp
      rcases List.prefix_concat_iff.mp hp with he | he
      · exact ⟨n, hn, Nat.le_refl _, by rw [decStr_step n h]; exact he⟩
      · obtain ⟨m, h1, h2, h3⟩ := ih (n / 10) (by omega) p (by omega) he hne
        exact ⟨m, h1, by omega, h3⟩
    · have hd : decStr n = [digitChar n] := by
        unfold decStr
        obtain ⟨k, rfl⟩ : ∃ k, n = k + 1 := ⟨n - 1, by omega⟩
        rw [digitsAux, if_pos (by omega)]
      refine ⟨n, hn, Nat.le_refl _, ?_⟩
      rw [hd] at hp ⊢
      obtain ⟨t, ht⟩ := hp
      cases p with
      | nil => exact absurd rfl hne
      | cons c p =>
        injection ht with h1 h2
        have : p = [] := (List.append_eq_nil_iff.mp h2).1
        rw [h1, this]

theorem scanInt_cut {n : Nat} {s b t : CStr} (hn : n < 2147483648) (h : s ++ b = intStr n ++ 10 :: t) (hs : scanInt s = some (0, [])) :
    n = 0 := by
  have hi : intStr (n : Int) = decStr n := by
    unfold intStr
    rw [if_neg (by omega), Int.natAbs_natCast]
  rw [hi] at h
  by_cases hz : n = 0
  · exact hz
  · exfalso
    have hne : s ≠ [] := by intro he; rw [he, scanInt_nil] at hs; cases hs
    have h1 : s <+: decStr n ++ 10 :: t := ⟨b, h⟩
    have h2 : decStr n <+: decStr n ++ 10 :: t := List.prefix_append _ _
    rcases List.prefix_or_prefix_of_prefix h1 h2 with hp | hp
    · obtain ⟨m, g1, g2, g3⟩ := decStr_prefix n s (by omega) hp hne
      have e : s = intStr (m : Int) ++ [] := by
        unfold intStr
        rw [if_neg (by omega), Int.natAbs_natCast, List.append_nil, g3]
      rw [e, scanInt_intStr (m : Int) [] (by omega) (by omega) rfl] at hs
      injection hs with hs
      injection hs with hs _
      omega
    · obtain ⟨u, hu⟩ := hp
      rw [← hu, List.append_assoc] at h
      have h3 : u ++ b = 10 :: t := List.append_cancel_left h
      have hst : startsDigit 10 u = false := by
        cases u with
        | nil => rfl
        | cons c u =>
          injection h3 with h3 _
          rw [h3]
          rfl
      have e : s = intStr (n : Int) ++ u := by rw [hi, hu]
      rw [e, scanInt_intStr (n : Int) u (by omega) (by omega) hst] at hs
      injection hs with hs
      injection hs with hs _
      omega

theorem headerStart_headerText (bb : Block) (h : GoodHeader bb) :
    headerStart (headerText bb) = some (bb.dtype, bb.nmemb, intStr bb.nfile ++ 10 :: headerLines 0 bb.fsize bb.fchecksum) := by
  obtain ⟨⟨h1, h2, h3, h4⟩, h5, h6, h7, h8, h9, h10, h11⟩ := h
  unfold headerStart headerText
  simp only [List.append_assoc]
  have e1 : ∀ s : CStr, scanLit b!" DTYPE: " (b!"DTYPE: " ++ s) = some (scanWs s) := fun _ => rfl
  rw [e1]
  simp only [Option.bind_eq_bind, Option.bind_some]
  obtain ⟨c0, t0, hdt⟩ : ∃ c t, bb.dtype = c :: t := by
    cases hd : bb.dtype with
    | nil => exact absurd hd h1
    | cons c t => exact ⟨c, t, rfl⟩
  have hws : ∀ s, scanWs (bb.dtype ++ s) = bb.dtype ++ s := by
    intro s
    rw [hdt, List.cons_append, scanWs_cons (h3 c0 (by rw [hdt]; simp)).1]
  have e2 : ∀ s : CStr, scanStr (bb.dtype ++ 10 :: s) = some (bb.dtype, 10 :: s) := by
    intro s
    unfold scanStr
    rw [hws]
    obtain ⟨k1, k2⟩ := takeWhile_append_stop (fun c => !isSpace c) bb.dtype 10 s
      (fun x hx => by rw [(h3 x hx).1]; rfl) (by decide)
    dsimp only
    rw [k1, k2]
    have : bb.dtype.isEmpty = false := by rw [hdt]; rfl
    rw [this]
    rfl
  rw [hws]
  have e3 : ∀ s : CStr, b!"\nNMEMB: " ++ s = 10 :: (b!"NMEMB: " ++ s) := fun _ => rfl
  rw [e3, e2]
  simp only [Option.bind_some]
  have e4 : ∀ s : CStr, scanLit b!" NMEMB: " (10 :: (b!"NMEMB: " ++ s)) = some (scanWs s) := fun _ => rfl
  rw [e4, scanWs_intStr]
  simp only [Option.bind_some]
  have e5 : ∀ s : CStr, b!"\nNFILE: " ++ s = 10 :: (b!"NFILE: " ++ s) := fun _ => rfl
  rw [scanInt_intStr bb.nmemb _ (by omega) h6 (by rw [e5]; rfl)]
  simp only [Option.bind_some]
  have e6 : ∀ s : CStr, scanLit b!" NFILE: " (b!"\nNFILE: " ++ s) = some (scanWs s) := fun _ => rfl
  rw [e6, scanWs_intStr]
  rfl

theorem takeWhile_prefix_append {α : Type} (p : α → Bool) (a b : List α) : (a.takeWhile p).length ≤ ((a ++ b).takeWhile p).length := by
  induction a with
  | nil => simp
  | cons c a ih =>
    rw [List.cons_append, List.takeWhile_cons, List.takeWhile_cons]
    split
    · simpa using ih
    · simp

end Verif
