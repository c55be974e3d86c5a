import Verif.Proof.AttrSet
import Verif.Proof.Header
/-!
# The text format of attributes is read back
-/

set_option autoImplicit false

namespace Verif

open Spec

theorem Spec.Clean.oneLine {s : CStr} (h : Clean s) : OneLine s := fun c hc => ⟨(h c hc).1, (h c hc).2.2.1⟩

theorem Spec.OneLine.append {a b : CStr} (ha : OneLine a) (hb : OneLine b) : OneLine (a ++ b) := by
  intro c hc
  rcases List.mem_append.mp hc with h | h
  · exact ha c h
  · exact hb c h

theorem IsDigit.clean {b : Nat} (hb : b ≤ 16) {c : Byte} (h : IsDigit b c) : c ≠ 0 ∧ c ≠ 9 ∧ c ≠ 10 ∧ c ≠ 32 := by
  have := h.range hb
  refine ⟨?_, ?_, ?_, ?_⟩ <;> (rintro rfl; simp at this)

theorem decStr_clean (n : Nat) : Clean (decStr n) := fun c hc => (decStr_digits n c hc).clean (by omega)

theorem intStr_clean (x : Int) : Clean (intStr x) := by
  unfold intStr
  split
  · intro c hc
    rcases List.mem_cons.mp hc with rfl | h
    · decide
    · exact decStr_clean _ c h
  · exact decStr_clean _

/-! ## Tokens -/

theorem expectTok_tok {tok rest : CStr} (hne : tok ≠ []) (h : Clean tok) :
    expectTok (tok ++ 32 :: rest) = some (tok, rest) := by
  have hb : ∀ c ∈ tok, isBlank c = false := by
    intro c hc
    obtain ⟨_, h1, _, h2⟩ := h c hc
    simp [isBlank, h1, h2]
  have h0 : (tok ++ 32 :: rest).dropWhile isBlank = tok ++ 32 :: rest := by
    cases tok with
    | nil => exact absurd rfl hne
    | cons c t => rw [List.cons_append, List.dropWhile_cons, if_neg]; rw [hb c (by simp)]; decide
  have h1 := takeWhile_append_stop (fun c => !isBlank c) tok 32 rest (fun c hc => by simp [hb c hc]) (by decide)
  unfold expectTok
  simp only
  rw [h0, h1.1, h1.2]
  simp only
  rw [takeWhile_all _ _ (fun c hc => by simp [(h c hc).1])]

theorem skipLine_line {t rest : CStr} (h : OneLine t) : skipLine (t ++ 10 :: rest) = rest := by
  have h1 := takeWhile_append_stop (fun c => c ≠ 10 && c ≠ 0) t 10 rest
    (fun c hc => by simp [(h c hc).1, (h c hc).2]) (by decide)
  unfold skipLine
  rw [h1.2]
  rfl

theorem atoi_intStr (x : Nat) (h : x < 2147483648) : atoi (intStr x) = x := by
  unfold atoi strtol10 intStr
  rw [if_neg (by omega)]
  have e : (x : Int).natAbs = x := rfl
  rw [e]
  have hd := decStr_digits x
  have hne := decStr_ne_nil x
  have h1 := scanWs_digits (b := 10) (rest := []) (by omega) hd hne
  have h2 := takeSign_digits (b := 10) (rest := []) (by omega) hd hne
  rw [List.append_nil] at h1 h2
  unfold scanWs at h1
  simp only
  rw [h1, h2]
  simp only
  have h3 := takeDigits_exact 10 (by omega) (decStr x) [] hd 0
  rw [List.append_nil] at h3
  rw [h3, decStr_val]
  simp only [Bool.false_eq_true, if_false]
  rw [clampLong_of_range (by omega) (by omega), i32_of_range (by omega) (by omega)]

theorem strtoll16_byte (b : Byte) : strtoll16 [digitChar (b.toNat / 16), digitChar (b.toNat % 16)] = b := by
  have h : ∀ n : Fin 256, strtoll16 [digitChar (n.val / 16), digitChar (n.val % 16)] = UInt8.ofNat n.val := by
    decide +kernel
  have := h ⟨b.toNat, b.toNat_lt⟩
  simpa using this

theorem unhex_hexBytes (bs : List Byte) : unhex (hexBytes bs) = bs := by
  induction bs with
  | nil => rfl
  | cons b bs ih => simp only [hexBytes, unhex]; rw [strtoll16_byte, ih]

theorem hexBytes_length (bs : List Byte) : (hexBytes bs).length = bs.length * 2 := by
  induction bs with
  | nil => rfl
  | cons b bs ih => simp only [hexBytes, List.length_cons, ih]; omega

theorem hexBytes_clean (bs : List Byte) : Clean (hexBytes bs) := by
  induction bs with
  | nil => intro c hc; simp [hexBytes] at hc
  | cons b bs ih =>
    intro c hc
    simp only [hexBytes, List.mem_cons] at hc
    have := b.toNat_lt
    rcases hc with rfl | rfl | h
    · exact IsDigit.clean (b := 16) (by omega) ⟨b.toNat / 16, by omega, rfl⟩
    · exact IsDigit.clean (b := 16) (by omega) ⟨b.toNat % 16, by omega, rfl⟩
    · exact ih c h

/-! ## The human-readable part -/

theorem formatNative_oneLine {env : Env} (hf : FmtOk env) (nd : CStr) (bs : List Byte) (hnd : OneLine nd)
    (hna : nd.drop 1 ≠ b!"a1") : OneLine (formatNative env nd bs) := by
  unfold formatNative
  simp only
  rw [if_neg hna]
  have hi := fun x => (intStr_clean x).oneLine
  have hd := fun x => (decStr_clean x).oneLine
  have p : OneLine b!"+" := by intro c hc; revert c; decide
  have q : OneLine b!"I" := by intro c hc; revert c; decide
  have l : OneLine b!"<" := by intro c hc; revert c; decide
  have g : OneLine b!">" := by intro c hc; revert c; decide
  repeat' split
  all_goals first
    | exact hi _
    | exact hd _
    | exact (hf _).1.1
    | exact (hf _).2.1
    | exact ((((hf _).1.1.append p).append (hf _).1.1).append q)
    | exact ((((hf _).2.1.append p).append (hf _).2.1).append q)
    | exact ((l.append hnd).append g)

theorem digitsAux_len (b : Nat) (hb : 0 < b) : ∀ (d fuel n : Nat), n < b ^ (d + 1) → (digitsAux b fuel n).length ≤ d + 1 := by
  intro d
  induction d with
  | zero =>
    intro fuel n h
    rw [Nat.zero_add, Nat.pow_one] at h
    cases fuel with
    | zero => exact Nat.le_refl _
    | succ fuel => rw [digitsAux, if_pos h]; exact Nat.le_refl _
  | succ d ih =>
    intro fuel n h
    cases fuel with
    | zero => exact Nat.le_add_left _ _
    | succ fuel =>
      rw [digitsAux]
      split
      · exact Nat.le_add_left _ _
      · rw [List.length_append, List.length_singleton]
        have := ih fuel (n / b) (Nat.div_lt_of_lt_mul (by rw [Nat.pow_succ] at h; rw [Nat.mul_comm]; exact h))
        omega

theorem decStr_len (d n : Nat) (h : n < 10 ^ (d + 1)) : (decStr n).length ≤ d + 1 := digitsAux_len 10 (by decide) d n n h

theorem intStr_len (d : Nat) (x : Int) (h : x.natAbs < 10 ^ (d + 1)) : (intStr x).length ≤ d + 2 := by
  have := decStr_len d _ h
  unfold intStr
  split
  · rw [List.length_cons]; omega
  · omega

theorem leDec_bound (bs : List Byte) : leDec bs < 256 ^ bs.length := by
  induction bs with
  | nil => decide
  | cons b bs ih =>
    have := b.toNat_lt
    rw [leDec, List.length_cons, Nat.pow_succ]
    omega

theorem natDec_bound (m : Machine) (bs : List Byte) : natDec m bs < 256 ^ bs.length := by
  unfold natDec
  split
  · exact leDec_bound bs
  · have := leDec_bound bs.reverse
    rwa [List.length_reverse] at this

theorem i64_len (x : Int) : (intStr (i64 x)).length ≤ 20 := by
  apply intStr_len 18
  have : (i64 x).natAbs ≤ 9223372036854775808 := by
    unfold i64
    dsimp only
    split <;> omega
  exact Nat.lt_of_le_of_lt this (by decide)

theorem i32_len (x : Int) : (intStr (i32 x)).length ≤ 20 := by
  apply intStr_len 18
  have : (i32 x).natAbs ≤ 9223372036854775808 := by
    unfold i32
    dsimp only
    split <;> omega
  exact Nat.lt_of_le_of_lt this (by decide)

/-- The text of one element has at most 28 characters. -/
theorem formatNative_length {env : Env} (hf : FmtOk env) (nd : CStr) (bs : List Byte) (hnd : nd.length ≤ 7)
    (hb : bs.length = (atoi (nd.drop 2)).toNat) : (formatNative env nd bs).length ≤ 28 := by
  have hn := natDec_bound env.m bs
  have hat : ∀ ty : CStr, nd.drop 1 = ty → bs.length = (atoi (ty.drop 1)).toNat := by
    intro ty h
    rw [hb, ← h, List.drop_drop]
  unfold formatNative
  dsimp only
  split
  · rename_i h
    have := hat _ h
    rw [show atoi (b!"a1".drop 1) = 1 by decide] at this
    omega
  split
  · rename_i h
    have := hat _ h
    rw [show atoi (b!"b1".drop 1) = 1 by decide] at this
    rw [show bs.length = 1 by omega] at hn
    have hl : ∀ x : Int, x.natAbs ≤ 256 → (intStr x).length ≤ 28 := fun x hx =>
      Nat.le_trans (intStr_len 2 x (Nat.lt_of_le_of_lt hx (by decide))) (by decide)
    apply hl
    split <;> omega
  split
  · exact Nat.le_trans (i64_len _) (by decide)
  split
  · exact Nat.le_trans (i32_len _) (by decide)
  split
  · rename_i h
    have := hat _ h
    rw [show atoi (b!"u8".drop 1) = 8 by decide] at this
    rw [show bs.length = 8 by omega] at hn
    exact Nat.le_trans (decStr_len 19 _ (Nat.lt_of_lt_of_le hn (by decide))) (by decide)
  split
  · rename_i h
    have := hat _ h
    rw [show atoi (b!"u4".drop 1) = 4 by decide] at this
    rw [show bs.length = 4 by omega] at hn
    exact Nat.le_trans (decStr_len 19 _ (Nat.lt_of_lt_of_le hn (by decide))) (by decide)
  split
  · have := (hf (natDec env.m bs)).2.2; omega
  split
  · have := (hf (natDec env.m bs)).1.2; omega
  split
  · have h1 := (hf (natDec env.m (bs.take 4))).1.2
    have h2 := (hf (natDec env.m (bs.drop 4))).1.2
    simp only [List.length_append, List.length_cons, List.length_nil]
    omega
  split
  · have h1 := (hf (natDec env.m (bs.take 8))).2.2
    have h2 := (hf (natDec env.m (bs.drop 8))).2.2
    simp only [List.length_append, List.length_cons, List.length_nil]
    omega
  · simp only [List.length_append, List.length_cons, List.length_nil]
    omega

/-- Memory changes only between `lo` and `hi`. -/
def Only (lo hi : Int) (m m' : Mem) : Prop := ∀ x, x < lo ∨ hi ≤ x → m' x = m x

theorem byte_reverse {m : Mem} {a : Int} : (peek m a 1).reverse = peek m a 1 := rfl

theorem dtypeFormat_spec {env : Env} (hf : FmtOk env) {dt : CStr} (hn : dtypeNormalize env.m dt = dt)
    {w : Nat} (hw : itemsize env.m dt = w) (hw0 : 0 < w) (hw1 : w < 2147483648) (hc : Clean dt)
    (hna : charAt dt 1 ≠ 97) (data : Int) (mem : Mem) :
    ∃ t mem', dtypeFormat env dt data mem = some (t, mem') ∧ (OneLine t ∧ t.length ≤ 28) ∧ Only data (data + w) mem mem' ∧
      (foreign env.m dt = false ∨ w = 1 → mem' = mem) := by
  obtain ⟨c, tl, hdt, hcc, htl⟩ := normalize_form env.m dt
  rw [hn] at hdt
  subst hdt
  unfold dtypeFormat
  simp only
  rw [hn]
  have hnd : dtypeNormalize env.m (61 :: (c :: tl).drop 1) = env.m.endian :: tl := by
    rw [show (c :: tl).drop 1 = tl from rfl, normalize_eq, List.take_of_length_le htl]
  rw [hnd]
  have hndfix : dtypeNormalize env.m (env.m.endian :: tl) = env.m.endian :: tl :=
    normalize_fix env.m _ tl (endian_cases env.m) htl
  have hwn : itemsize env.m (env.m.endian :: tl) = w := by
    rw [← hw]
    unfold itemsize
    rw [hndfix, hn]
    rfl
  obtain ⟨dm', sm', k1, _, _, k4, k5, k6⟩ := convertSimple_spec env.m env.fo 0 data (env.m.endian :: tl) (c :: tl)
    1 w w env.junk mem (fun i => toNative env.m (env.m.endian :: tl) (toNative env.m (c :: tl)
      (peek mem (data + (i * w : Nat)) w))) hwn hw hw0 (by omega) (by omega)
    (by rw [hndfix, hn]; unfold convertible; simp)
    (by intro i _; rw [hndfix, hn]; unfold convElem; simp)
  rw [k1]
  refine ⟨_, sm', rfl, ⟨?_, formatNative_length hf _ _ (by rw [List.length_cons]; omega) ?_⟩, ?_, ?_⟩
  rotate_left
  · rw [peek_length]
    unfold itemsize
    rw [hndfix]
  rotate_right
  · apply formatNative_oneLine hf
    · intro x hx
      rcases List.mem_cons.mp hx with rfl | h
      · rcases endian_cases env.m with e | e <;> rw [e] <;> decide
      · exact hc.oneLine x (by simp [h])
    · intro h
      apply hna
      have : tl = b!"a1" := h
      rw [this]
      rfl
  · intro x hx
    exact k5 x (by rw [Nat.mul_one]; exact hx)
  · rintro (h | h)
    · exact k4 (by rw [hn]; exact h)
    · subst h
      funext x
      by_cases hx : x < data ∨ data + (1 * 1 : Nat) ≤ x
      · exact k5 x hx
      · have := k6 0 (by omega)
        unfold toNative at this
        rw [byte_reverse, ite_self] at this
        simp only [peek, List.cons.injEq, and_true] at this
        have hx' : x = data + ((0 * 1 : Nat) : Int) := by omega
        rw [hx']
        exact this

theorem textualLoop_spec {env : Env} (hf : FmtOk env) (a : Attr) (hn : dtypeNormalize env.m a.dtype = a.dtype)
    {w n : Nat} (hw : itemsize env.m a.dtype = w) (hw0 : 0 < w) (hw1 : w < 2147483648) (hc : Clean a.dtype)
    (hnm : a.nmemb = n) : ∀ (k j : Nat) (acc : CStr) (mem : Mem), j + k = n → OneLine acc →
    acc.length ≤ 32 * j → ∃ t mem', textualLoop env a w k j acc mem = some (t, mem') ∧ (OneLine t ∧ t.length ≤ 32 * n) ∧
      Only a.data (a.data + (w * n : Nat)) mem mem' ∧ (foreign env.m a.dtype = false ∨ w = 1 → mem' = mem) := by
  intro k
  induction k with
  | zero =>
    intro j acc mem hjk hacc hal
    exact ⟨acc, mem, rfl, ⟨hacc, by omega⟩, fun _ _ => rfl, fun _ => rfl⟩
  | succ k ih =>
    intro j acc mem hjk hacc hal
    simp only [textualLoop]
    by_cases hch : charAt a.dtype 1 ≠ 97 ∧ ¬ (charAt a.dtype 1 = 83 ∧ (w : Int) = 1)
    · rw [if_pos hch]
      obtain ⟨t, mem1, k1, ⟨k2, k2l⟩, k3, k4⟩ := dtypeFormat_spec hf hn hw hw0 hw1 hc hch.1 (a.data + (j : Int) * w) mem
      rw [k1]
      simp only
      have hacc' : OneLine (acc ++ t.takeWhile (· ≠ 0) ++ (if (j : Int) ≠ a.nmemb - 1 then b!" " else [])) := by
        refine (hacc.append ?_).append ?_
        · intro c hc; exact k2 c (List.takeWhile_subset _ hc)
        · split
          · intro c hc; revert c; decide
          · intro c hc; simp at hc
      obtain ⟨t', mem2, j1, j2, j3, j4⟩ := ih (j + 1) _ mem1 (by omega) hacc' (by
        have h1 : (t.takeWhile (· ≠ 0)).length ≤ t.length := (List.takeWhile_sublist _).length_le
        have h2 : (if (j : Int) ≠ a.nmemb - 1 then b!" " else []).length ≤ 1 := by split <;> decide
        rw [List.length_append, List.length_append]
        omega)
      refine ⟨t', mem2, j1, j2, ?_, ?_⟩
      · intro x hx
        rw [j3 x hx]
        apply k3
        have hm := Nat.mul_le_mul_right w (show j + 1 ≤ n by omega)
        rw [Nat.add_mul] at hm
        rw [Nat.mul_comm w n] at hx
        have : (j : Int) * w = ((j * w : Nat) : Int) := by simp
        rw [this]
        omega
      · intro h
        rw [j4 h, k4 h]
    · rw [if_neg hch]
      by_cases h10 : mem (a.data + j) = 10
      · rw [if_pos h10]
        refine ⟨_, mem, rfl, ⟨hacc.append ?_, ?_⟩, fun _ _ => rfl, fun _ => rfl⟩
        · intro c hc; revert c; decide
        · rw [List.length_append, show (b!"...").length = 3 from rfl]; omega
      · rw [if_neg h10]
        by_cases h0 : mem (a.data + j) = 0
        · rw [if_pos h0]
          exact ⟨acc, mem, rfl, ⟨hacc, by omega⟩, fun _ _ => rfl, fun _ => rfl⟩
        · rw [if_neg h0]
          exact ih (j + 1) _ mem (by omega) (hacc.append (by
            intro c hc
            rw [List.mem_singleton] at hc
            subst hc
            exact ⟨h0, h10⟩)) (by rw [List.length_append, List.length_singleton]; omega)

/-- The line of an entry. -/
def entryLine (e : Entry) (t : CStr) : CStr :=
  e.name ++ b!" " ++ e.val.dtype ++ b!" " ++ intStr e.val.nmemb ++ b!" " ++ hexBytes e.val.bytes ++
    b!" #HUMANE [ " ++ t ++ b!" ]\n"

theorem attrLine_spec {env : Env} (hf : FmtOk env) {s : AttrSet} {e : Entry} (h : EntryOk env.m s e)
    (hs : Storable e.name e.val) :
    ∃ t buf, attrLine env s (e.attr s.base) = some (entryLine e t, buf) ∧ OneLine t ∧
      Only (s.base + e.off + e.name.length + 1) (s.base + e.off + e.name.length + 1 + e.val.bytes.length) s.buf buf ∧
      (Native env.m e.val → buf = s.buf) := by
  obtain ⟨w, hw⟩ : ∃ w : Nat, itemsize env.m e.val.dtype = w :=
    ⟨_, (Int.toNat_of_nonneg (by have := h.item; omega)).symm⟩
  have hitem := h.item
  have hnb := h.nbytes
  have hbl := hs.bytes
  have hnm := hs.nmemb
  rw [hw] at hitem hnb
  have hwn : e.val.bytes.length = w * e.val.nmemb := by
    have : ((w * e.val.nmemb : Nat) : Int) = (w : Int) * e.val.nmemb := Int.natCast_mul _ _
    omega
  have hw1 : w ≤ w * e.val.nmemb := Nat.le_mul_of_pos_right w hnm
  have hwa : itemsize env.m (e.attr s.base).dtype = w := hw
  have hwb : (w : Int) * (e.attr s.base).nmemb = e.val.bytes.length := hnb.symm
  unfold attrLine
  simp only [hwa, hwb]
  rw [if_neg (by simp [fitsInt]; omega)]
  have hnat : Native env.m e.val → foreign env.m e.val.dtype = false ∨ w = 1 := by
    rintro (h1 | h1)
    · exact Or.inl h1
    · right; unfold widthOf at h1; rw [hw] at h1; simpa using h1
  have hpeek : peek s.buf (e.attr s.base).data ((e.val.bytes.length : Int)).toNat = e.val.bytes := by
    exact h.data
  have hname : s.nameOf (e.attr s.base) = e.name := h.nameOf
  by_cases hlong : (e.val.bytes.length : Int) > 128
  · rw [if_pos hlong]
    simp only
    refine ⟨b!"... (Too Long) ", s.buf, ?_, ?_, fun _ _ => rfl, fun _ => rfl⟩
    · rw [hname, hpeek]; rfl
    · intro c hc; revert c; decide
  · rw [if_neg hlong]
    have hn128 : e.val.nmemb ≤ 128 := by
      have : e.val.nmemb ≤ w * e.val.nmemb := Nat.le_mul_of_pos_left _ (by omega)
      omega
    have hnmi : (e.attr s.base).nmemb = (e.val.nmemb : Int) := rfl
    obtain ⟨t, buf, k1, ⟨k2, k2l⟩, k3, k4⟩ := textualLoop_spec hf (e.attr s.base) h.norm hw (by omega) (by omega) hs.dtype
      (n := e.val.nmemb) rfl e.val.nmemb 0 [] s.buf (by omega) (by intro c hc; simp at hc) (Nat.zero_le _)
    rw [if_neg (by rw [hnmi]; simp [fitsInt]; omega), show (e.attr s.base).nmemb.toNat = e.val.nmemb from rfl, k1]
    rw [Option.filter_some_pos (by rw [hnmi]; simp; omega)]
    simp only
    refine ⟨t, buf, ?_, k2, ?_, fun hn => k4 (hnat hn)⟩
    · rw [hname, hpeek]; rfl
    · rw [hwn]; exact k3

/-! ## Reading a line -/

theorem parseFields_line {e : Entry} {t rest : CStr} (hs : Storable e.name e.val) (hd : e.val.dtype ≠ [])
    (hb : e.val.bytes ≠ []) (ht : OneLine t) :
    parseFields (entryLine e t ++ rest) =
      some (e.name, e.val.dtype, intStr e.val.nmemb, hexBytes e.val.bytes, rest) := by
  have hin : intStr (e.val.nmemb : Int) ≠ [] := by
    unfold intStr
    rw [if_neg (by omega)]
    exact decStr_ne_nil _
  have hhex : hexBytes e.val.bytes ≠ [] := by
    cases hbb : e.val.bytes with
    | nil => exact absurd hbb hb
    | cons b bs => simp [hexBytes]
  have hform : entryLine e t ++ rest = e.name ++ 32 :: (e.val.dtype ++ 32 :: (intStr e.val.nmemb ++ 32 ::
      (hexBytes e.val.bytes ++ 32 :: ((b!"#HUMANE [ " ++ t ++ b!" ]") ++ 10 :: rest)))) := by
    simp [entryLine]
  rw [hform]
  unfold parseFields
  rw [expectTok_tok hs.nameNe hs.clean]
  simp only
  rw [expectTok_tok hd hs.dtype]
  simp only
  rw [expectTok_tok hin (intStr_clean _)]
  simp only
  rw [expectTok_tok hhex (hexBytes_clean _)]
  simp only
  rw [skipLine_line]
  refine OneLine.append (OneLine.append ?_ ht) ?_
  · intro c hc; revert c; decide
  · intro c hc; revert c; decide

theorem Spec.Clean.hasBlank {s : CStr} (h : Clean s) : hasBlank s = false := by
  unfold Verif.hasBlank
  rw [List.any_eq_false]
  intro c hc
  obtain ⟨_, h1, h2, h3⟩ := h c hc
  simp [h1, h2, h3]

/-- Reading the line of an entry sets the attribute. -/
theorem parseV2_line {env : Env} {s : AttrSet} {es : List Entry} (h : AttrInv env.m s es) {e : Entry}
    (he : Typed env.m e.val) (hs : Storable e.name e.val) {t : CStr} (ht : OneLine t) (rest : CStr) (fuel : Nat) :
    ∃ s' es', parseV2 env (fuel + 1) (entryLine e t ++ rest) s = parseV2 env fuel rest s' ∧
      AttrInv env.m s' es' ∧ findE es' = (findE es).put e.name e.val := by
  obtain ⟨w, hw⟩ : ∃ w : Nat, itemsize env.m e.val.dtype = w :=
    ⟨_, (Int.toNat_of_nonneg (by have := he.item; omega)).symm⟩
  have hitem := he.item
  have hnb := he.nbytes
  have hbl := hs.bytes
  have hnm := hs.nmemb
  rw [hw] at hitem hnb
  have hwn : e.val.bytes.length = w * e.val.nmemb := by
    have : ((w * e.val.nmemb : Nat) : Int) = (w : Int) * e.val.nmemb := Int.natCast_mul _ _
    omega
  have hw1 : w ≤ w * e.val.nmemb := Nat.le_mul_of_pos_right w hnm
  have hn1 : e.val.nmemb ≤ w * e.val.nmemb := Nat.le_mul_of_pos_left _ (by omega)
  have hd : e.val.dtype ≠ [] := by
    obtain ⟨c, tl, hdt, _⟩ := normalize_form env.m e.val.dtype
    rw [he.norm] at hdt
    rw [hdt]; simp
  have hb : e.val.bytes ≠ [] := by
    intro hb
    rw [hb] at hwn
    simp only [List.length_nil] at hwn
    omega
  have hhead : (entryLine e t ++ rest).headD 0 ≠ 0 := by
    cases hnn : e.name with
    | nil => exact absurd hnn hs.nameNe
    | cons c nn =>
      have := (hs.clean c (by rw [hnn]; simp)).1
      simpa [entryLine, hnn] using this
  simp only [parseV2]
  rw [if_neg hhead, parseFields_line hs hd hb ht]
  simp only
  rw [atoi_intStr _ (by omega), hw]
  have hmul : (e.val.nmemb : Int) * w = e.val.bytes.length := by rw [hnb, Int.mul_comm]
  rw [hmul, if_neg (by simp [fitsInt]; omega), hexBytes_length]
  rw [if_neg (by
    have : u64 ((e.val.bytes.length : Int) * 2) = e.val.bytes.length * 2 := by
      rw [show (e.val.bytes.length : Int) * 2 = ((e.val.bytes.length * 2 : Nat) : Int) by omega]
      exact u64_of_nat (by omega)
    simp [this])]
  rw [unhex_hexBytes]
  obtain ⟨s', es', sm', k1, k2, k3, _⟩ := setAttr_spec h e.name e.val.dtype e.val.nmemb
    (poke env.junk 0 e.val.bytes) 0 (fun h0 => (hs.clean 0 h0).1 rfl) he.item (by rw [hw, ← hnb]; omega)
    hs.nameLen hs.clean.hasBlank
  rw [k1]
  refine ⟨s', es', by simp, k2, ?_⟩
  rw [k3, he.norm]
  have hwid : widthOf env.m e.val.dtype = w := by unfold widthOf; rw [hw]; rfl
  rw [hwid, ← hwn, peek_poke_same]

/-! ## All lines -/

/-- Put all entries into a map, in order. -/
def putAll (es : List Entry) (M : AttrMap) : AttrMap := es.foldl (fun M e => M.put e.name e.val) M

theorem putAll_findE {es : List Entry} (h : SortedE es) : ∀ M, putAll es M = fun n => (findE es n).or (M n) := by
  induction es with
  | nil => intro M; rfl
  | cons e es ih =>
    intro M
    have hs := List.pairwise_cons.mp h
    show putAll es (M.put e.name e.val) = _
    rw [ih hs.2]
    funext n
    by_cases hn : e.name = n
    · have h1 : findE es n = none := findE_none (fun x hx hxn => by
        have := strcmp_lt_ne (hs.1 x hx)
        rw [hn, hxn] at this
        exact this rfl)
      have h2 : findE (e :: es) n = some e.val := by
        unfold findE
        rw [List.find?_cons]
        simp [hn]
      rw [h1, h2, ← hn]
      simp [AttrMap.put]
    · have h2 : findE (e :: es) n = findE es n := by
        unfold findE
        rw [List.find?_cons, show (e.name == n) = false by simpa using hn]
      rw [h2]
      have : (M.put e.name e.val) n = M n := by
        unfold AttrMap.put
        rw [if_neg (fun h => hn h.symm)]
      rw [this]

theorem Spec.SameButForeign.refl (m : Machine) (M : AttrMap) : SameButForeign m M M := by
  intro n
  cases h : M n with
  | none => exact Or.inl ⟨rfl, rfl⟩
  | some v => exact Or.inr ⟨v, v.bytes, rfl, rfl, rfl, fun _ => rfl⟩

theorem Spec.SameButForeign.trans {m : Machine} {M M' M'' : AttrMap} (h : SameButForeign m M M')
    (h' : SameButForeign m M' M'') : SameButForeign m M M'' := by
  intro n
  rcases h n with ⟨a, b⟩ | ⟨v, bs, a, b, c, d⟩
  · rcases h' n with ⟨a', b'⟩ | ⟨v', bs', a', _⟩
    · exact Or.inl ⟨a, b'⟩
    · rw [b] at a'; exact absurd a' (by simp)
  · rcases h' n with ⟨a', b'⟩ | ⟨v', bs', a', b', c', d'⟩
    · rw [b] at a'; exact absurd a' (by simp)
    · rw [b] at a'
      injection a' with a'
      subst a'
      refine Or.inr ⟨v, bs', a, b', by rw [c', c], fun hn => ?_⟩
      rw [d' hn, d hn]

theorem setVal_same {m : Machine} {es : List Entry} (h : SortedE es) {e : Entry} (he : e ∈ es) (bs : List Byte)
    (hl : bs.length = e.val.bytes.length) (hn : Native m e.val → bs = e.val.bytes)
    (hs' : SortedE (setVal es e.name bs)) :
    SameButForeign m (findE es) (findE (setVal es e.name bs)) := by
  intro n
  by_cases hne : n = e.name
  · subst hne
    refine Or.inr ⟨e.val, bs, findE_mem h he, ?_, hl, hn⟩
    rw [findE_iff hs']
    exact ⟨_, mem_setVal.mpr (Or.inr ⟨e, he, rfl, rfl⟩), rfl, rfl⟩
  · cases hf : findE es n with
    | none =>
      left
      refine ⟨rfl, ?_⟩
      apply findE_none
      intro x hx hxn
      rcases mem_setVal.mp hx with ⟨h1, _⟩ | ⟨x', h1, h2, h3⟩
      · have := findE_mem h h1
        rw [hxn, hf] at this
        exact absurd this (by simp)
      · rw [h3] at hxn
        exact hne (by rw [← hxn]; exact h2)
    | some v =>
      right
      obtain ⟨x, hx, hxn, hxv⟩ := findE_some hf
      refine ⟨v, v.bytes, rfl, ?_, rfl, fun _ => rfl⟩
      rw [findE_iff hs']
      exact ⟨x, mem_setVal.mpr (Or.inl ⟨hx, by rw [hxn]; exact hne⟩), hxn, hxv⟩

theorem attrLines_cons {env : Env} {a : Attr} {as : List Attr} {s s' : AttrSet} {l ls : CStr} {buf : Mem}
    (h1 : attrLine env s a = some (l, buf)) (h2 : attrLines env as { s with buf := buf } = some (ls, s')) :
    attrLines env (a :: as) s = some (l ++ ls, s') := by
  rw [attrLines, h1, Option.bind_some, h2]
  rfl

/-- What `attrLines` prints can be read back, and printing changes only attributes in the other byte
order. -/
theorem attrLines_spec {env : Env} (hf : FmtOk env) (todo : List Entry) : ∀ {s : AttrSet} {es : List Entry},
    AttrInv env.m s es → (∀ e ∈ todo, e ∈ es) → SortedE todo → (∀ e ∈ todo, Storable e.name e.val) →
    ∃ txt buf es', attrLines env (todo.map (Entry.attr s.base)) s = some (txt, { s with buf := buf }) ∧
      AttrInv env.m { s with buf := buf } es' ∧ SameButForeign env.m (findE es) (findE es') ∧
      ((∀ e ∈ todo, Native env.m e.val) → buf = s.buf ∧ es' = es) ∧
      todo.length ≤ txt.length ∧
      ∀ (fuel : Nat) (rest : CStr) (sp : AttrSet) (ep : List Entry), AttrInv env.m sp ep →
        ∃ sp' ep', parseV2 env (todo.length + fuel) (txt ++ rest) sp = parseV2 env fuel rest sp' ∧
          AttrInv env.m sp' ep' ∧ findE ep' = putAll todo (findE ep) := by
  induction todo with
  | nil =>
    intro s es h _ _ _
    refine ⟨[], s.buf, es, rfl, h, SameButForeign.refl _ _, fun _ => ⟨rfl, rfl⟩, Nat.le_refl _, ?_⟩
    intro fuel rest sp ep hp
    exact ⟨sp, ep, by simp, hp, rfl⟩
  | cons e todo ih =>
    intro s es h hsub hsort hst
    have hee := hsub e (by simp)
    have heo := h.ok e hee
    have hse := hst e (by simp)
    have hsc := List.pairwise_cons.mp hsort
    obtain ⟨t, buf1, k1, k2, k3, k4⟩ := attrLine_spec hf heo hse
    obtain ⟨bs, hbs⟩ : ∃ bs, bs = peek buf1 (s.base + e.off + e.name.length + 1) e.val.bytes.length := ⟨_, rfl⟩
    have hbl : bs.length = e.val.bytes.length := by rw [hbs, peek_length]
    have hinv1 : AttrInv env.m { s with buf := buf1 } (setVal es e.name bs) := by
      apply h.update hee buf1 bs hbl
      · rw [hbl, hbs]
      · rw [hbl]; exact k3
    have hnat : Native env.m e.val → bs = e.val.bytes := by
      intro hn
      rw [hbs, k4 hn]
      have := heo.data
      exact this
    have hsame1 := setVal_same (m := env.m) h.sorted hee bs hbl hnat hinv1.sorted
    have hsub1 : ∀ x ∈ todo, x ∈ setVal es e.name bs := by
      intro x hx
      refine mem_setVal.mpr (Or.inl ⟨hsub x (by simp [hx]), ?_⟩)
      exact (strcmp_lt_ne (hsc.1 x hx)).symm
    obtain ⟨txt, buf, es', j1, j2, j3, j4, j5, j6⟩ := ih hinv1 hsub1 hsc.2 (fun x hx => hst x (by simp [hx]))
    refine ⟨entryLine e t ++ txt, buf, es', ?_, j2, hsame1.trans j3, ?_, ?_, ?_⟩
    · exact attrLines_cons k1 j1
    · intro hall
      have hn := hall e (by simp)
      have hb := k4 hn
      obtain ⟨l1, l2⟩ := j4 (fun x hx => hall x (by simp [hx]))
      refine ⟨by rw [l1]; exact hb, ?_⟩
      rw [l2]
      unfold setVal
      have : ∀ x ∈ es, (if x.name = e.name then ({ x with val := { x.val with bytes := bs } } : Entry) else x) = x := by
        intro x hx
        split
        · rename_i hxn
          rw [sortedE_unique h.sorted hx hee hxn, hnat hn]
        · rfl
      rw [List.map_congr_left this, List.map_id']
    · rw [List.length_append, List.length_cons]
      have : 0 < (entryLine e t).length := by
        unfold entryLine
        rw [List.length_append]
        exact Nat.lt_of_lt_of_le (by decide : 0 < (b!" ]\n").length) (Nat.le_add_left _ _)
      omega
    · intro fuel rest sp ep hp
      obtain ⟨sp1, ep1, l1, l2, l3⟩ := parseV2_line hp ⟨heo.norm, heo.item, heo.nbytes⟩ hse k2 (txt ++ rest) (todo.length + fuel)
      obtain ⟨sp2, ep2, m1, m2, m3⟩ := j6 fuel rest sp1 ep1 l2
      refine ⟨sp2, ep2, ?_, m2, ?_⟩
      · rw [List.length_cons, show todo.length + 1 + fuel = todo.length + fuel + 1 by omega, List.append_assoc, l1, m1]
      · rw [m3, l3]; rfl

end Verif
