import Verif.Spec.AttrBad
import Verif.Proof.AttrV1
import Verif.Proof.Reopen
import Verif.Proof.TreeKept
import Verif.Props.AttrDisk
/-!
# C60, C62: malformed and unreadable attribute files
-/

set_option autoImplicit false

namespace Verif

open Spec

theorem bind_ub {α β : Type} {m : M α} {f : α → M β} {w : World}
    (h : wpc m w (fun a w' => f a w' = .ub) (fun _ => False)) : (m >>= f) w = .ub := by
  show M.bind m f w = .ub
  unfold wpc at h
  unfold M.bind
  cases e : m w with
  | ok a w' => rw [e] at h; exact h
  | crash _ => rw [e] at h; exact h.elim
  | ub => rfl
  | hang => rw [e] at h; exact h.elim

/-- The well-formed lines at the beginning are read, whatever follows. -/
theorem parseV2_prefix {env : Env} (ls : List (CStr × AttrVal × CStr)) : ∀ {s : AttrSet} {es : List Entry},
    AttrInv env.m s es → (∀ l ∈ ls, Storable l.1 l.2.1 ∧ Typed env.m l.2.1 ∧ OneLine l.2.2) → ∀ (rest : CStr) (fuel : Nat),
    ∃ s' es', parseV2 env (ls.length + fuel) (textV2 ls ++ rest) s = parseV2 env fuel rest s' ∧ AttrInv env.m s' es' ∧
      findE es' = putLines (findE es) ls := by
  induction ls with
  | nil => intro s es h _ rest fuel; exact ⟨s, es, by simp [textV2], h, rfl⟩
  | cons l ls ih =>
    intro s es h hl rest fuel
    obtain ⟨name, v, t⟩ := l
    obtain ⟨h1, h2, h3⟩ := hl _ (List.mem_cons_self ..)
    obtain ⟨s1, es1, k1, k2, k3⟩ := parseV2_line h (e := ⟨0, name, v⟩) h2 h1 h3 (textV2 ls ++ rest) (ls.length + fuel)
    obtain ⟨s2, es2, l1, l2, l3⟩ := ih k2 (fun l hl' => hl l (List.mem_cons_of_mem _ hl')) rest fuel
    refine ⟨s2, es2, ?_, l2, ?_⟩
    · rw [List.length_cons, Nat.add_right_comm, show textV2 ((name, v, t) :: ls) ++ rest = entryLine ⟨0, name, v⟩ t ++ (textV2 ls ++ rest) by
        simp [textV2, entryLine, lineV2]]
      rw [k1, l1]
    · rw [l3, k3]
      rfl

/-! ## Tokens and blanks -/

theorem expectTok_blanks {s tok rest : CStr} (h : expectTok s = some (tok, rest)) : blanks rest + 1 ≤ blanks s ∧ rest.length < s.length := by
  have hib : ∀ c, isBlank c = true → (c == 32 || c == 9) = true := by
    intro c hc
    unfold isBlank at hc
    simpa using hc
  unfold expectTok at h
  dsimp only at h
  split at h
  · cases h
  · rename_i b t ht
    injection h with h
    injection h with _ h
    subst h
    have hb : isBlank b = true := by
      have : ∀ l : CStr, ∀ b t, l.dropWhile (fun c => !isBlank c) = b :: t → isBlank b = true := by
        intro l
        induction l with
        | nil => intro b t h; cases h
        | cons x xs ih =>
          intro b t h
          rw [List.dropWhile_cons] at h
          split at h
          · exact ih b t h
          · rename_i hx
            injection h with h1 _
            subst h1
            simpa using hx
      exact this _ _ _ ht
    have hs : s = s.takeWhile isBlank ++ ((s.dropWhile isBlank).takeWhile (fun c => !isBlank c) ++ b :: t) := by
      rw [← ht, List.takeWhile_append_dropWhile, List.takeWhile_append_dropWhile]
    refine ⟨?_, ?_⟩
    · unfold blanks
      rw [hs]
      simp only [List.filter_append, List.length_append, List.filter_cons, hib b hb, if_true, List.length_cons]
      omega
    · rw [hs]
      simp only [List.length_append, List.length_cons]
      omega

theorem skipLine_length (s : CStr) : (skipLine s).length ≤ s.length := by
  have h : ∀ l : CStr, (l.dropWhile (fun c => c ≠ 10 && c ≠ 0)).length ≤ l.length := by
    intro l
    induction l with
    | nil => exact Nat.le_refl _
    | cons x xs ih =>
      rw [List.dropWhile_cons]
      split
      · simp only [List.length_cons]; omega
      · exact Nat.le_refl _
  unfold skipLine
  have := h s
  split
  · rename_i t ht
    rw [ht] at this
    simp only [List.length_cons] at this
    omega
  · exact this

theorem parseFields_blanks {txt a b c d t : CStr} (h : parseFields txt = some (a, b, c, d, t)) :
    4 ≤ blanks txt ∧ t.length < txt.length := by
  unfold parseFields at h
  cases e1 : expectTok txt with
  | none => rw [e1] at h; cases h
  | some p1 =>
    obtain ⟨n1, t1⟩ := p1
    rw [e1] at h
    dsimp only at h
    cases e2 : expectTok t1 with
    | none => rw [e2] at h; cases h
    | some p2 =>
      obtain ⟨n2, t2⟩ := p2
      rw [e2] at h
      dsimp only at h
      cases e3 : expectTok t2 with
      | none => rw [e3] at h; cases h
      | some p3 =>
        obtain ⟨n3, t3⟩ := p3
        rw [e3] at h
        dsimp only at h
        cases e4 : expectTok t3 with
        | none => rw [e4] at h; cases h
        | some p4 =>
          obtain ⟨n4, t4⟩ := p4
          rw [e4] at h
          dsimp only at h
          injection h with h
          injection h with _ h
          injection h with _ h
          injection h with _ h
          injection h with _ h
          subst h
          have h1 := expectTok_blanks e1
          have h2 := expectTok_blanks e2
          have h3 := expectTok_blanks e3
          have h4 := expectTok_blanks e4
          have h5 := skipLine_length t4
          exact ⟨by omega, by omega⟩

/-- **C60, termination.** Whatever bytes are in the attribute file, the loop over its lines ends by itself: it never
needs more rounds than the file has bytes, plus one. -/
theorem C60_terminates (env : Env) : ∀ (n : Nat) (txt : CStr) (s : AttrSet) (k : Nat), txt.length ≤ n →
    parseV2 env (n + 1 + k) txt s = parseV2 env (n + 1) txt s := by
  intro n
  induction n with
  | zero =>
    intro txt s k h
    have : txt = [] := List.length_eq_zero_iff.mp (Nat.le_zero.mp h)
    subst this
    rw [Nat.add_right_comm]
    rfl
  | succ n ih =>
    intro txt s k h
    rw [show n + 1 + 1 + k = (n + 1 + k) + 1 by omega]
    unfold parseV2
    by_cases h0 : txt.headD 0 = 0
    · rw [if_pos h0, if_pos h0]
    · rw [if_neg h0, if_neg h0]
      cases hp : parseFields txt with
      | none => rfl
      | some p =>
        obtain ⟨name, dtype, rl, rd, t⟩ := p
        dsimp only
        split
        · rfl
        · split
          · rfl
          · cases setAttr env s name 0 dtype (atoi rl) (poke env.junk 0 (unhex rd)) with
            | none => rfl
            | some r =>
              obtain ⟨rc, s', _⟩ := r
              dsimp only
              split
              · rfl
              · exact ih t s' k (by have := (parseFields_blanks hp).2; omega)

/-! ## C60 -/

theorem expectTok_token {tok rest : CStr} (hne : tok ≠ []) (h : Token tok) :
    expectTok (tok ++ 32 :: rest) = some (tok, rest) := by
  have hb : ∀ c ∈ tok, isBlank c = false := by
    intro c hc
    obtain ⟨_, h1, h2⟩ := h c hc
    simp [isBlank, h1, h2]
  have h0 : (tok ++ 32 :: rest).dropWhile isBlank = tok ++ 32 :: rest := by
    cases tok with
    | nil => exact absurd rfl hne
    | cons c t => rw [List.cons_append, List.dropWhile_cons, if_neg]; rw [hb c (by simp)]; decide
  have h1 := takeWhile_append_stop (fun c => !isBlank c) tok 32 rest (fun c hc => by simp [hb c hc]) (by decide)
  unfold expectTok
  simp only
  rw [h0, h1.1, h1.2]
  simp only
  rw [takeWhile_all _ _ (fun c hc => by simp [(h c hc).1])]

theorem parseFields_bad {m : Machine} {name dtype len data rest : CStr} (h : BadFields m name dtype len data) :
    parseFields (badLine name dtype len data ++ rest) = some (name, dtype, len, data, skipLine rest) := by
  have e : badLine name dtype len data ++ rest =
      name ++ 32 :: (dtype ++ 32 :: (len ++ 32 :: (data ++ 32 :: rest))) := by simp [badLine]
  rw [e]
  unfold parseFields
  rw [expectTok_token h.nameOk.1 h.nameOk.2]
  dsimp only
  rw [expectTok_token h.dtypeOk.1 h.dtypeOk.2]
  dsimp only
  rw [expectTok_token h.lenOk.1 h.lenOk.2]
  dsimp only
  rw [expectTok_token h.dataOk.1 h.dataOk.2]

theorem parseV2_bad {env : Env} {name dtype len data rest : CStr} {s : AttrSet} (h : BadFields env.m name dtype len data)
    (fuel : Nat) : ∃ s', parseV2 env (fuel + 1) (badLine name dtype len data ++ rest) s = some (-1, s') := by
  have hne : (badLine name dtype len data ++ rest).headD 0 ≠ 0 := by
    cases hn : name with
    | nil => exact absurd hn h.nameOk.1
    | cons c cs =>
      have := (h.nameOk.2 c (by rw [hn]; simp)).1
      simpa [badLine] using this
  unfold parseV2
  rw [if_neg hne, parseFields_bad h]
  dsimp only
  rw [h.fits.1, h.fits.2, if_neg (by simp)]
  split
  · exact ⟨_, rfl⟩
  · rename_i hu
    have hn : 10 ∈ name := by
      refine h.wrong.resolve_left ?_
      intro hw
      have hf := h.fits.2
      have hs := h.small
      unfold fitsInt at hf
      unfold u64 at hu
      simp only [Bool.and_eq_true, decide_eq_true_eq] at hf
      omega
    have hb : hasBlank name = true := by
      unfold hasBlank
      rw [List.any_eq_true]
      exact ⟨10, hn, by decide⟩
    unfold setAttr
    dsimp only
    rw [if_pos hb]
    dsimp only
    rw [if_pos (by decide)]
    exact ⟨_, rfl⟩

/-- Reading comes to the rest of the file. -/
theorem Spec.AttrTail.reads {env : Env} {fs : FS} {base : CStr} {ls : List (CStr × AttrVal × CStr)} {tail : CStr}
    (h : AttrTail env fs base ls tail) : ∃ s1 s' fuel, readsV1 env fs base (attrsetCreate env) = some (0, s1) ∧
      readsV2 env fs base s1 = (parseV2 env (fuel + 1) tail s').map fun r => (r.1, { r.2 with dirty := false }) := by
  obtain ⟨s1, h1, es, hi⟩ := h.old
  obtain ⟨s', es', k1, _⟩ := parseV2_prefix ls (hi.dirty false) h.lines tail ((textV2 ls ++ tail).length + 1 - ls.length)
  have hlen := textV2_length ls
  refine ⟨s1, s', (textV2 ls ++ tail).length - ls.length, h1, ?_⟩
  unfold readsV2 FS.bytes
  rw [h.file]
  simp only [Option.isSome_some, if_true]
  have e : (textV2 ls ++ tail).length + 1 = ls.length + ((textV2 ls ++ tail).length + 1 - ls.length) := by
    simp only [List.length_append]; omega
  rw [e, k1]
  congr 2
  simp only [List.length_append]
  omega

/-- **C60** (partial: lines with four fields; see `C60_cut` for shorter ones). If the attribute file has, after any
number of well-formed lines, a line whose data has the wrong length, or an empty line, opening the block fails, and nothing on disk
changes. -/
theorem C60_refused_partial (env : Env) (base : CStr) (w : World) (ls : List (CStr × AttrVal × CStr))
    (name dtype len data rest : CStr) (hnf : w.faults = noFaults) (hb : base.length ≤ 8192)
    (h : AttrTail env w.fs base ls (badLine name dtype len data ++ rest)) (hbad : BadFields env.m name dtype len data) :
    ∃ w', blockOpen env base w = .ok (-1, none) w' ∧ w'.fs = w.fs := by
  obtain ⟨s1, s', fuel, h1, h2⟩ := h.reads
  obtain ⟨s2, hp⟩ := parseV2_bad (rest := rest) (s := s') hbad fuel
  rw [hp] at h2
  have key : wpc (blockOpen env base) w (fun r w' => r = (-1, none) ∧ w'.fs = w.fs) (fun _ => False) := by
    unfold blockOpen
    have hstr : strdup base = base := by unfold strdup; exact List.take_of_length_le hb
    dsimp only
    rw [hstr, wpc_bind]
    apply wpc_readV1_nf hnf h1
    intro w1 e1 f1
    simp only [ne_eq, not_true_eq_false, if_false]
    rw [wpc_bind]
    apply wpc_readV2_nf f1 (by rw [e1]; exact h2)
    intro w2 e2 f2
    simp only [ne_eq, show (-1 : Int) ≠ 0 by decide, not_false_eq_true, if_true]
    rw [wpc_pure]
    exact ⟨rfl, e2.trans e1⟩
  obtain ⟨r, w', e, rfl, h'⟩ := wpc_returns key (fun _ h => h)
  exact ⟨w', e, h'⟩

/-- **C60 is false for incomplete lines.** If the file ends with an incomplete line (less than four blanks in what
follows the well-formed lines, for example because the line was cut), opening the block reads beyond the end of the
buffer: the behaviour is undefined. -/
theorem C60_cut (env : Env) (base : CStr) (w : World) (ls : List (CStr × AttrVal × CStr)) (tail : CStr)
    (hnf : w.faults = noFaults) (hb : base.length ≤ 8192) (h : AttrTail env w.fs base ls tail)
    (h0 : tail.headD 0 ≠ 0) (hcut : blanks tail < 4) : blockOpen env base w = .ub := by
  obtain ⟨s1, s', fuel, h1, h2⟩ := h.reads
  have hp : parseV2 env (fuel + 1) tail s' = none := by
    unfold parseV2
    rw [if_neg h0]
    cases hf : parseFields tail with
    | none => rfl
    | some p =>
      obtain ⟨a, b, c, d, t⟩ := p
      have := (parseFields_blanks hf).1
      omega
  rw [hp] at h2
  have hstr : strdup base = base := by unfold strdup; exact List.take_of_length_le hb
  unfold blockOpen
  dsimp only
  rw [hstr]
  apply bind_ub
  apply wpc_readV1_nf hnf h1
  intro w1 e1 f1
  simp only [ne_eq, not_true_eq_false, if_false]
  have hub : readAttrsV2 env s1 base w1 = .ub := by
    unfold readAttrsV2
    apply bind_ub
    apply wpc_openR_nf f1
    intro w2 e2 f2
    have hs : (w1.fs.node (fileKey base .attrV2)).isSome = true := by rw [e1, h.file]; rfl
    rw [hs, if_pos rfl]
    apply bind_ub
    rw [wpc_getFS]
    apply bind_ub
    apply wpc_readAll_nf f2
    intro w3 e3 f3
    have hk : resolve (filePath base .attrV2) = fileKey base .attrV2 := rfl
    rw [hk, if_neg (by simp), e2, e1]
    unfold readsV2 at h2
    rw [e1] at hs
    rw [if_pos hs] at h2
    rw [Option.map_none, Option.map_eq_none_iff] at h2
    rw [h2]
    rfl
  show M.bind (readAttrsV2 env s1 base) _ w1 = .ub
  unfold M.bind
  rw [hub]

/-- Attributes in the example: one well-formed line, then a line with two bytes of data for one `i4`. -/
def exBadFS (tail : CStr) : FS := exW.fs.set (fileKey b!"d/x" .attrV2) (.file (textV2 [(b!"a", ⟨b!"<i4", 1, [1, 2, 3, 4]⟩, b!"#HUMANE [ 1 ]")] ++ tail))

theorem exBad_tail (tail : CStr) : AttrTail exEnv (exBadFS tail) b!"d/x" [(b!"a", ⟨b!"<i4", 1, [1, 2, 3, 4]⟩, b!"#HUMANE [ 1 ]")] tail := by
  refine ⟨?_, ?_, ?_⟩
  · intro l hl
    simp only [List.mem_singleton] at hl
    subst hl
    refine ⟨⟨by decide, by unfold Clean; decide, by decide, by unfold Clean; decide, by decide, by decide⟩, ⟨by decide, by decide, by decide⟩, ?_⟩
    unfold OneLine
    decide
  · exact FS.set_node _ _ _
  · have h1 : (exBadFS tail).node (fileKey b!"d/x" .attr) = none := by
      unfold exBadFS
      rw [FS.set_other _ _ _ _ (fileKey_ne (by simp))]
      decide +kernel
    refine ⟨{ attrsetCreate exEnv with dirty := false }, ?_, ⟨[], (attrsetCreate_inv exEnv).dirty false⟩⟩
    unfold readsV1
    rw [h1]
    rfl

example : ∃ w', blockOpen exEnv b!"d/x" ⟨exBadFS (badLine b!"b" b!"<i4" b!"1" b!"0A0B" ++ b!"\n"), noFaults, 0⟩ = .ok (-1, none) w' ∧
    w'.fs = exBadFS (badLine b!"b" b!"<i4" b!"1" b!"0A0B" ++ b!"\n") :=
  C60_refused_partial exEnv b!"d/x" ⟨exBadFS (badLine b!"b" b!"<i4" b!"1" b!"0A0B" ++ b!"\n"), noFaults, 0⟩ _ b!"b" b!"<i4" b!"1" b!"0A0B" b!"\n" rfl (by decide) (exBad_tail _)
    ⟨⟨by decide, by unfold Token; decide⟩, ⟨by decide, by unfold Token; decide⟩, ⟨by decide, by unfold Token; decide⟩, ⟨by decide, by unfold Token; decide⟩,
      ⟨by decide, by decide⟩, Or.inl (by decide), by decide⟩

/-- An empty line before the next attribute. -/
example : ∃ w', blockOpen exEnv b!"d/x" ⟨exBadFS (badLine b!"\nb" b!"<i4" b!"1" b!"0A0B0C0D" ++ b!"\n"), noFaults, 0⟩ = .ok (-1, none) w' ∧
    w'.fs = exBadFS (badLine b!"\nb" b!"<i4" b!"1" b!"0A0B0C0D" ++ b!"\n") :=
  C60_refused_partial exEnv b!"d/x" ⟨exBadFS (badLine b!"\nb" b!"<i4" b!"1" b!"0A0B0C0D" ++ b!"\n"), noFaults, 0⟩ _ b!"\nb" b!"<i4" b!"1" b!"0A0B0C0D" b!"\n" rfl (by decide) (exBad_tail _)
    ⟨⟨by decide, by unfold Token; decide⟩, ⟨by decide, by unfold Token; decide⟩, ⟨by decide, by unfold Token; decide⟩, ⟨by decide, by unfold Token; decide⟩,
      ⟨by decide, by decide⟩, Or.inr (by decide), by decide⟩

example : blockOpen exEnv b!"d/x" ⟨exBadFS b!"b <i4 1", noFaults, 0⟩ = .ub :=
  C60_cut exEnv b!"d/x" ⟨exBadFS b!"b <i4 1", noFaults, 0⟩ _ _ rfl (by decide) (exBad_tail _) (by decide) (by decide)

example : parseV2 exEnv (5 + 1 + 7) b!"abcde" (attrsetCreate exEnv) = parseV2 exEnv (5 + 1) b!"abcde" (attrsetCreate exEnv) :=
  C60_terminates exEnv 5 b!"abcde" _ 7 (by decide)

/-- Set attribute `a` on the example block and flush, killed at operation `i` after `n` bytes; then open the block. -/
def exTorn (i n : Nat) : Option Bool :=
  match attrRun exEnv exB.attrset [.set b!"a" b!"i4" 1 exMem 100] with
  | none => none
  | some (_, s) =>
    match blockFlush exEnv { exB with attrset := s } ⟨exW.fs, fun k => if k = i then .crash n else .none, 0⟩ with
    | .crash w => some (blockOpen exEnv exB.basename { w with faults := noFaults }).isUb
    | _ => none

/-- **C60 is false after a crash.** A process that is killed while a flush writes the attribute file leaves a block
on which opening has undefined behaviour. -/
theorem C60_torn_flush : exTorn 1 5 = some true := by decide +kernel

/-! ## C62 -/

theorem wlp_openR {base : CStr} {id : FileId} {w : World} {Q : Bool → World → Prop}
    (h : ∀ b w', w'.fs = w.fs → w'.faults = w.faults →
      (b = (w.fs.node (fileKey base id)).isSome ∨ b = false ∧ ∃ i, w.faults i = .fail) → Q b w') :
    wlp (openAFile base id .r) w Q (fun _ => True) := by
  unfold openAFile fopen
  apply wlp_of_wpc
  rw [wpc_bind, wpc_tick]
  cases hf : w.faults w.clock with
  | crash n => trivial
  | fail => exact h _ _ rfl rfl (Or.inr ⟨rfl, _, hf⟩)
  | none | short | silent =>
    simp only
    rw [wpc_bind, wpc_getFS]
    exact h _ _ rfl rfl (Or.inl rfl)

/-- Whatever faults happen, reading the attribute file fails, or ignores the file, or gives all of it. -/
theorem wlp_readV2 {env : Env} {s : AttrSet} {base : CStr} {w : World} {r : Int × AttrSet} {Q : Int × AttrSet → World → Prop}
    (hr : readsV2 env w.fs base s = some r)
    (h : ∀ r' w', w'.fs = w.fs → (r'.1 ≠ 0 ∨ r' = r ∨ r' = (0, { s with dirty := false }) ∧ ∃ i, w.faults i = .fail) → Q r' w') :
    wlp (readAttrsV2 env s base) w Q (fun _ => True) := by
  unfold readAttrsV2
  rw [wlp_bind]
  apply wlp_openR
  intro b w1 e1 f1 hb
  unfold readsV2 at hr
  rcases hb with hb | ⟨hb, hi⟩
  · by_cases hs : (w.fs.node (fileKey base .attrV2)).isSome = true
    · rw [hs] at hb
      subst hb
      rw [if_pos hs] at hr
      rw [if_pos rfl, wlp_bind]
      apply wlp_of_wpc
      rw [wpc_getFS]
      have hk : resolve (filePath base .attrV2) = fileKey base .attrV2 := rfl
      rw [hk, wlp_bind]
      apply wlp_of_wpc
      apply wpc_freadAt
      · intro n w2 e2 f2 _
        rw [hk, List.drop_zero, List.take_of_length_le (Nat.le_refl _), e1]
        split
        · exact h _ w2 (e2.trans e1) (Or.inl (by show (-1 : Int) ≠ 0; decide))
        · rename_i hn
          have hle : (w.fs.bytes (fileKey base .attrV2)).length ≤ n := by
            rw [List.length_take] at hn
            omega
          rw [List.take_of_length_le hle, wlp_bind]
          obtain ⟨⟨rc, s'⟩, hp, he⟩ := Option.map_eq_some_iff.mp hr
          rw [hp]
          exact h _ w2 (e2.trans e1) (Or.inr (Or.inl he))
      · intro _ _ _; trivial
    · have hf : (w.fs.node (fileKey base .attrV2)).isSome = false := by simpa using hs
      rw [hf] at hb
      subst hb
      rw [if_neg hs] at hr
      injection hr with hr
      rw [if_neg (by simp)]
      exact h _ w1 e1 (Or.inr (Or.inl hr))
  · subst hb
    rw [if_neg (by simp)]
    exact h _ w1 e1 (Or.inr (Or.inr ⟨rfl, hi⟩))

/-- **C62** (partial: blocks without an attribute file in the old format, and the second alternative, see
`C62_lost`). Whatever operations fail, are short or are killed: when opening a block succeeds, the handle has exactly
the attributes on disk, or it has none and some operation failed. -/
theorem C62_all_or_none_partial (env : Env) (base : CStr) (w w' : World) (b : Block) (M : AttrMap)
    (hb : base.length ≤ 8192) (hno : w.fs.node (fileKey base .attr) = none) (ha : AttrsSay env w.fs base M)
    (h : blockOpen env base w = .ok (0, some b) w') :
    attrView env.m b.attrset = M ∨ attrView env.m b.attrset = AttrMap.empty ∧ ∃ i, w.faults i = .fail := by
  obtain ⟨s1, s2, h1, h2, _, h4⟩ := ha
  have hs1 : s1 = { attrsetCreate env with dirty := false } := by
    unfold readsV1 at h1
    rw [hno, if_neg (by simp)] at h1
    injection h1 with h1
    injection h1 with _ h1
    exact h1.symm
  have hem : attrView env.m { s1 with dirty := false } = AttrMap.empty := by
    rw [hs1]
    exact ((attrsetCreate_inv env).dirty false).view_eq
  have key : wlp (blockOpen env base) w (fun r _ => ∀ b, r = (0, some b) →
      (attrView env.m b.attrset = M ∨ attrView env.m b.attrset = AttrMap.empty ∧ ∃ i, w.faults i = .fail)) (fun _ => True) := by
    unfold blockOpen
    have hstr : strdup base = base := by unfold strdup; exact List.take_of_length_le hb
    dsimp only
    rw [hstr, wlp_bind]
    unfold readAttrsV1
    rw [wlp_bind]
    apply wlp_openR
    intro b1 w1 e1 f1 hb1
    have hb1 : b1 = false := by
      rcases hb1 with hb1 | hb1
      · rw [hno] at hb1; exact hb1
      · exact hb1.1
    subst hb1
    rw [if_neg (by simp), wlp_pure]
    simp only [ne_eq, not_true_eq_false, if_false]
    rw [← hs1, wlp_bind]
    apply wlp_readV2 (by rw [e1]; exact h2)
    rintro ⟨rc, s⟩ w2 e2 hr
    have hs : rc ≠ 0 ∨ attrView env.m s = M ∨ attrView env.m s = AttrMap.empty ∧ ∃ i, w.faults i = .fail := by
      rcases hr with hr | hr | ⟨hr, i, hi⟩
      · exact Or.inl hr
      · injection hr with _ hr
        exact Or.inr (Or.inl (by rw [hr]; exact h4))
      · injection hr with _ hr
        exact Or.inr (Or.inr ⟨by rw [hr]; exact hem, i, by rw [← f1]; exact hi⟩)
    dsimp only
    split
    · rw [wlp_pure]
      intro b hb
      injection hb with hb
      exact absurd hb (by decide)
    · rename_i hrc
      have hs := hs.resolve_left hrc
      split
      · rw [wlp_bind]
        apply wlp_openR
        intro b3 w3 e3 f3 _
        split
        · rw [wlp_bind]
          apply wlp_of_wpc
          rw [wpc_getFS, wlp_bind]
          apply wlp_of_wpc
          apply wpc_freadAt
          · intro n w4 e4 f4 _
            split
            · rw [wlp_pure]
              intro b hb
              injection hb with hb
              exact absurd hb (by decide)
            · trivial
            · rw [wlp_pure]
              intro b hb
              injection hb with _ hb
              injection hb with hb
              rw [← hb]
              exact hs
          · intro _ _ _; trivial
        · rw [wlp_pure]
          intro b hb
          injection hb with hb
          exact absurd hb (by decide)
      · rw [wlp_pure]
        intro b hb
        injection hb with _ hb
        injection hb with hb
        rw [← hb]
        exact hs
  exact wlp_ok key h b rfl

/-- Attribute `a` is on disk. Open with operation `i` failing, set attribute `b`, close, open again: the return codes, and
whether `a` and `b` are there. -/
def exLost (i : Nat) : Option (Int × Int × Int × Option (Bool × Bool)) :=
  match attrRun exEnv exB.attrset [.set b!"a" b!"i4" 1 exMem 100] with
  | none => none
  | some (_, s) =>
    match blockFlush exEnv { exB with attrset := s } exW with
    | .ok _ w => match blockOpen exEnv b!"d/x" ⟨w.fs, fun k => if k = i then .fail else .none, 0⟩ with
      | .ok (rc, some b) w => match attrRun exEnv b.attrset [.set b!"b" b!"i4" 1 exMem 100] with
        | some (_, s) => (closeOpen exEnv { b with attrset := s } { w with faults := noFaults }).val?.map fun r =>
            (rc, r.1, r.2.1, r.2.2.map fun b => ((attrView exEnv.m b.attrset b!"a").isSome, (attrView exEnv.m b.attrset b!"b").isSome))
        | none => none
      | _ => none
    | _ => none

/-- **C62 is false.** When the attribute file cannot be opened for a moment, opening the block succeeds without
attributes, and the next close removes the stored attributes from disk, also successfully. -/
theorem C62_lost : exLost 1 = some (0, 0, 0, some (false, true)) := by decide +kernel

example : exLost 100 = some (0, 0, 0, some (true, true)) := by decide +kernel

example (w' : World) (b : Block) (h : blockOpen exEnv b!"d/x" ⟨exW.fs, fun k => if k = 1 then .fail else .none, 0⟩ = .ok (0, some b) w') :=
  C62_all_or_none_partial exEnv b!"d/x" ⟨exW.fs, fun k => if k = 1 then .fail else .none, 0⟩ w' b AttrMap.empty (by decide) (by show exW.fs.node _ = none; decide +kernel) exAttrsSay h

end Verif
