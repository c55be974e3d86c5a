import Verif.Model.OptionsScripts
import Verif.Props.Options
import Verif.Props.OptionsMpi
import Verif.Props.LsTool
import Verif.Props.Jobs
/-!
# C95: the command lines of the shell scripts
-/

set_option autoImplicit false

namespace Verif

open Spec

/-- A name that the scripts can handle: not empty, without blanks, and it does not begin with `-`. -/
structure Spec.PlainName (s : CStr) : Prop where
  ne : s ≠ []
  noBlank : ∀ c ∈ s, c ≠ 32 ∧ c ≠ 9 ∧ c ≠ 10
  noDash : s.head? ≠ some '-'.toUInt8

theorem wordsAux_whole : ∀ (s cur : CStr), (∀ c ∈ s, c ≠ 32 ∧ c ≠ 9 ∧ c ≠ 10) → cur ++ s ≠ [] → wordsAux cur s = [cur.reverse ++ s] := by
  intro s
  induction s with
  | nil =>
    intro cur _ h
    rw [wordsAux, if_neg (by simpa using h), List.append_nil]
  | cons c s ih =>
    intro cur hs _
    obtain ⟨h1, h2, h3⟩ := hs c (by simp)
    rw [wordsAux, if_neg (by simp [h1, h2, h3]), ih _ (fun d hd => hs d (by simp [hd])) (by simp)]
    simp

theorem words_whole {s : CStr} (hne : s ≠ []) (hs : ∀ c ∈ s, c ≠ 32 ∧ c ≠ 9 ∧ c ≠ 10) : words s = [s] := by
  unfold words
  rw [wordsAux_whole s [] hs (by simpa using hne)]
  rfl

theorem Spec.PlainName.words {s : CStr} (h : PlainName s) : Verif.words s = [s] := words_whole h.ne h.noBlank

theorem Spec.PlainName.plain {s : CStr} (h : PlainName s) : Plain s := Or.inl h.noDash

theorem words_each : ∀ {l : List CStr}, (∀ b ∈ l, PlainName b) → l.flatMap words = l := by
  intro l
  induction l with
  | nil => intro _; rfl
  | cons b l ih =>
    intro h
    rw [List.flatMap_cons, (h b (by simp)).words, ih (fun c hc => h c (by simp [hc]))]
    rfl

theorem wordsAux_mem : ∀ (s cur : CStr), (∀ c ∈ cur, c ≠ 32 ∧ c ≠ 9 ∧ c ≠ 10) → ∀ a ∈ wordsAux cur s,
    a ≠ [] ∧ ∀ c ∈ a, c ≠ 32 ∧ c ≠ 9 ∧ c ≠ 10 := by
  intro s
  induction s with
  | nil =>
    intro cur hcur a ha
    rw [wordsAux] at ha
    by_cases h : cur = []
    · rw [if_pos h] at ha; cases ha
    · rw [if_neg h] at ha
      obtain rfl := List.mem_singleton.mp ha
      exact ⟨by simpa using h, fun c hc => hcur c (by simpa using hc)⟩
  | cons c s ih =>
    intro cur hcur a ha
    rw [wordsAux] at ha
    by_cases hc : c = 32 ∨ c = 9 ∨ c = 10
    · rw [if_pos hc] at ha
      rcases List.mem_append.mp ha with ha | ha
      · by_cases h : cur = []
        · rw [if_pos h] at ha; cases ha
        · rw [if_neg h] at ha
          obtain rfl := List.mem_singleton.mp ha
          exact ⟨by simpa using h, fun c hc => hcur c (by simpa using hc)⟩
      · exact ih [] (by simp) a ha
    · rw [if_neg hc] at ha
      refine ih (c :: cur) ?_ a ha
      intro d hd
      rcases List.mem_cons.mp hd with rfl | hd
      · simp only [not_or] at hc; exact hc
      · exact hcur d hd

theorem words_mem {s a : CStr} (h : a ∈ words s) : a ≠ [] ∧ ∀ c ∈ a, c ≠ 32 ∧ c ≠ 9 ∧ c ≠ 10 := wordsAux_mem s [] (by simp) a h

theorem PlainName_backup {b : CStr} (h : PlainName b) : PlainName (backup b) := by
  unfold backup
  refine ⟨by simp [h.ne], ?_, ?_⟩
  · intro c hc
    rcases List.mem_append.mp hc with hc | hc
    · exact h.noBlank c hc
    · exact (by decide : ∀ c ∈ b!"-REPBAK", c ≠ 32 ∧ c ≠ 9 ∧ c ≠ 10) c hc
  · cases b with
    | nil => exact absurd rfl h.ne
    | cons c b => exact h.noDash

theorem decStr_plain (n : Nat) : PlainName (decStr n) := by
  have hd : ∀ c ∈ decStr n, 48 ≤ c.toNat ∧ c.toNat ≤ 57 := by
    intro c hc
    obtain ⟨v, hv, hv2⟩ := decStr_digits n c hc
    rw [hv2, digitChar_toNat v (by omega)]
    split <;> omega
  refine ⟨decStr_ne_nil n, fun c hc => ?_, fun h => ?_⟩
  · have := hd c hc
    refine ⟨?_, ?_, ?_⟩ <;> (rintro rfl; revert this; decide)
  · have := hd _ (List.mem_of_head? h)
    revert this
    decide

/-! ## What the scripts ask of the programs -/

theorem checkJob_eq (env : Env) (sort : List CStr → List CStr) (gnu : Bool) (file block : CStr) (buf : Int) (mem : Mem)
    (hf : PlainName file) (hb : PlainName block) : checkJob env sort gnu file block buf mem = checkBlock env sort file block buf mem := by
  have hp : ∀ w ∈ [file, block], Plain w := by
    intro w hw
    simp only [List.mem_cons, List.not_mem_nil, or_false] at hw
    rcases hw with rfl | rfl
    · exact hf.plain
    · exact hb.plain
  have h1 : bigfileCat env gnu ([b!"-b"] ++ words file ++ words block) buf mem = catMain env file block true 0 (-1) 268435456 buf mem := by
    rw [hf.words, hb.words]
    exact C95_cat env gnu [.flag 'b'.toUInt8] _ file block true 0 (-1) 268435456 buf mem
      (Or.inl (CmdLine.option (ws := [b!"-b"]) (rest := [file, block]) (Given.Written.flag (by decide))
        (CmdLine.operands hp)))
      rfl (by simp [Has]) (Or.inl ⟨rfl, rfl⟩) (by omega) (Or.inl ⟨rfl, rfl⟩) (by omega) (Or.inl ⟨rfl, rfl⟩) (by omega)
  have h2 : bigfileLs env sort gnu ([b!"-l"] ++ words file ++ words block) = lsMain env sort true file (some block) := by
    rw [hf.words, hb.words]
    exact C95_ls env sort gnu [.flag 'l'.toUInt8] _ file (some block) true
      (Or.inl (CmdLine.option (ws := [b!"-l"]) (rest := [file, block]) (Given.Written.flag (by decide))
        (CmdLine.operands hp)))
      (by simp [Has])
  unfold checkJob checkBlock
  rw [h1, h2, hb.words]

theorem checkJobs_eq (env : Env) (sort : List CStr → List CStr) (gnu : Bool) (file : CStr) (buf : Int) (mem : Mem) (hf : PlainName file) :
    ∀ (blocks : List CStr), (∀ b ∈ blocks, PlainName b) →
      checkJobs env sort gnu file buf mem blocks = checkBlocks env sort file buf mem blocks := by
  intro blocks
  induction blocks with
  | nil => intro _; rfl
  | cons b bs ih =>
    intro h
    rw [checkJobs, checkBlocks, checkJob_eq env sort gnu file b buf mem hf (h b (by simp)), ih fun c hc => h c (by simp [hc])]

theorem bigfileLs_file (env : Env) (sort : List CStr → List CStr) (gnu : Bool) (file : CStr) (hf : PlainName file) :
    bigfileLs env sort gnu (words file) = lsMain env sort false file none := by
  rw [hf.words]
  exact C95_ls env sort gnu [] _ file none false
    (Or.inl (CmdLine.operands (by intro w hw; obtain rfl := List.mem_singleton.mp hw; exact hf.plain))) (by simp [Has])

theorem scriptOpts_understood {gs : List Given} {ops args : List CStr} (h : Understood false (takesOf b!"v") gs ops args) :
    scriptOpts args = some (!gs.isEmpty, ops) := by
  unfold scriptOpts
  rw [understood (by decide) h]
  cases gs <;> rfl

/-- `-v` is the only option. -/
theorem given_v {gs : List Given} {ops args : List CStr} (h : Understood false (takesOf b!"v") gs ops args) :
    (!gs.isEmpty) = true ↔ Has gs 'v'.toUInt8 := by
  have hok := understood_ok h
  cases gs with
  | nil => simp [Has]
  | cons g gs =>
    refine ⟨fun _ => ⟨g, by simp, ?_⟩, fun _ => rfl⟩
    have hg := hok g (by simp)
    cases g with
    | flag c =>
      have := hg.1 c rfl
      rw [takesOf] at this
      by_cases hc : 118 = c
      · rw [← hc]; rfl
      · rw [if_neg hc] at this; cases this
    | value c v =>
      have := hg.2 c v rfl
      rw [takesOf] at this
      by_cases hc : 118 = c
      · rw [if_pos hc] at this; cases this
      · rw [if_neg hc] at this; cases this

/-- **C95, bigfile-check**, with names of blocks: the check of these blocks (C77). `-v` makes no difference. -/
theorem C95_check (env : Env) (sort : List CStr → List CStr) (gnu : Bool) (gs : List Given) (args : List CStr) (file : CStr)
    (blocks : List CStr) (buf : Int) (mem : Mem) (h : Understood false (takesOf b!"v") gs (file :: blocks) args) (hne : blocks ≠ [])
    (hf : PlainName file) (hb : ∀ b ∈ blocks, PlainName b) :
    bigfileCheck env sort gnu args buf mem = checkMain env sort file blocks buf mem := by
  unfold bigfileCheck checkMain
  rw [scriptOpts_understood h]
  dsimp only
  rw [if_neg (show ¬ (file :: blocks).headD [] = [] from hf.ne), if_neg (show ¬ blocks.isEmpty = true by simpa using hne)]
  cases blocks with
  | nil => exact absurd rfl hne
  | cons b bs =>
    rw [if_neg (show ¬ (file :: b :: bs).tail.headD [] = [] from (hb b (by simp)).ne)]
    show checkJobs env sort gnu file buf mem ((b :: bs).flatMap words) = _
    rw [words_each hb, checkJobs_eq env sort gnu file buf mem hf _ hb]

/-- **C95, bigfile-check** of all blocks, unless the name of one begins with `-`. -/
theorem C95_check_all (env : Env) (sort : List CStr → List CStr) (gnu : Bool) (gs : List Given) (args : List CStr) (file : CStr)
    (buf : Int) (mem : Mem) (w w1 : World) (e : Exit) (out : CStr) (h : Understood false (takesOf b!"v") gs [file] args)
    (hf : PlainName file) (hls : lsMain env sort false file none w = .ok (e, out) w1)
    (hb : ∀ b ∈ words out, b.head? ≠ some '-'.toUInt8) :
    bigfileCheck env sort gnu args buf mem w = checkMain env sort file [] buf mem w := by
  unfold bigfileCheck checkMain
  rw [scriptOpts_understood h]
  dsimp only
  rw [if_neg (show ¬ [file].headD [] = [] from hf.ne), if_pos (show [file].tail.headD [] = [] from rfl)]
  show (M.bind (bigfileLs env sort gnu (words file)) _) w = _
  rw [bigfileLs_file env sort gnu file hf]
  show (M.bind (lsMain env sort false file none) _) w = (M.bind (lsMain env sort false file none) _) w
  simp only [M.bind, hls]
  show checkJobs env sort gnu file buf mem (words out) w1 = _
  rw [checkJobs_eq env sort gnu file buf mem hf (words out) fun b hm => ⟨(words_mem hm).1, (words_mem hm).2, hb b hm⟩]

theorem repartJob_eq (env : Env) (order : List Key → List Key) (gnu verbose : Bool) (file block : CStr) (n : Nat) (buf : Int) (mem : Mem)
    (hf : PlainName file) (hb : PlainName block) (hn : n < 2147483648) :
    repartJob env order gnu verbose file (decStr n) block buf mem = repart env order verbose file (some n) block buf mem := by
  have hk := PlainName_backup hb
  have hfh : file ≠ b!"-h" := by rintro rfl; exact hf.noDash rfl
  have hplain : ∀ w ∈ [file, backup block, block], Plain w := by
    intro w hw
    simp only [List.mem_cons, List.not_mem_nil, or_false] at hw
    rcases hw with rfl | rfl | rfl
    · exact hf.plain
    · exact hk.plain
    · exact hb.plain
  have h1 : bigfileRename (words file ++ words block ++ words (backup block)) = renameTool file block (backup block) := by
    rw [hf.words, hb.words, hk.words]
    unfold bigfileRename
    rw [if_neg (by exact hfh)]
    rfl
  have h3 : bigfileRm order (words file ++ words (backup block)) = rmTool order file [backup block] := by
    rw [hf.words, hk.words]
    unfold bigfileRm
    rw [if_neg (by exact hfh)]
    show rmTool order file ([backup block].flatMap words) = _
    rw [words_each (by intro b hm; obtain rfl := List.mem_singleton.mp hm; exact hk)]
  unfold repartJob repart
  rw [h1, h3]
  cases verbose with
  | true =>
    have h2 : bigfileCopy env gnu ([if true = true then b!"-v" else b!"0", b!"-n"] ++ words (decStr n) ++ words file ++ words (backup block) ++ words block)
        buf mem = copyMain env file (backup block) file block (some n) 268435456 buf mem := by
      rw [hf.words, hb.words, hk.words, (decStr_plain n).words]
      exact C95_copy env gnu [.flag 'v'.toUInt8, .value 'n'.toUInt8 (decStr n)] _ file (backup block) block file (some n) 268435456 buf mem
        (Or.inl (CmdLine.option (ws := [b!"-v"]) (rest := [b!"-n", decStr n, file, backup block, block]) (Given.Written.flag (by decide))
          (CmdLine.option (ws := [b!"-n", decStr n]) (rest := [file, backup block, block]) (Given.Written.apart (by decide))
            (CmdLine.operands hplain))))
        (Or.inl ⟨rfl, rfl⟩) (Or.inr rfl) hn (Or.inl ⟨rfl, rfl⟩) (by omega)
    rw [h2]
    rfl
  | false =>
    have h2 : ∀ w, bigfileCopy env gnu ([if false = true then b!"-v" else b!"0", b!"-n"] ++ words (decStr n) ++ words file ++ words (backup block) ++ words block)
        buf mem w = .ok .failed w := by
      intro w
      rw [hf.words, hb.words, hk.words, (decStr_plain n).words]
      have hz : Plain b!"0" := Or.inl (by decide)
      have hg : ∃ os ops, getopt gnu (takesOf b!"n:vB:f:") ([b!"0", b!"-n"] ++ [decStr n] ++ [file] ++ [backup block] ++ [block]) = some (os, ops) ∧
          4 ≤ ops.length := by
        cases gnu with
        | true =>
          exact ⟨_, _, understood (takes := takesOf b!"n:vB:f:") (gs := [.value 'n'.toUInt8 (decStr n)]) (ops := [b!"0", file, backup block, block])
            (by decide) (Or.inr ⟨rfl, Mixed.operand hz (Mixed.option (ws := [b!"-n", decStr n]) (rest := [file, backup block, block])
              (Given.Written.apart (by decide)) (Mixed.operand (hplain _ (by simp)) (Mixed.operand (hplain _ (by simp))
                (Mixed.operand (hplain _ (by simp)) Mixed.nil))))⟩), by simp⟩
        | false => exact ⟨_, _, getopt_plain hz _, by simp⟩
      obtain ⟨os, ops, e, hl⟩ := hg
      unfold bigfileCopy
      rw [if_neg (by decide : ¬ false = true), e]
      rcases ops with _ | ⟨a, _ | ⟨b, _ | ⟨c, _ | ⟨d, l⟩⟩⟩⟩ <;> first | rfl | (simp at hl)
    funext w
    show (M.bind (renameTool file block (backup block)) _) w = (M.bind (renameTool file block (backup block)) _) w
    simp only [M.bind]
    cases renameTool file block (backup block) w with
    | ok b w1 =>
      cases b with
      | false => rfl
      | true =>
        show (M.bind (bigfileCopy _ _ _ _ _) _) w1 = _
        simp only [M.bind, h2]
        rfl
    | _ => rfl

theorem repartJobs_eq (env : Env) (order : List Key → List Key) (gnu verbose : Bool) (file : CStr) (n : Nat) (buf : Int) (mem : Mem)
    (hf : PlainName file) (hn : n < 2147483648) :
    ∀ (blocks : List CStr), (∀ b ∈ blocks, PlainName b) →
      repartJobs env order gnu verbose file (decStr n) buf mem blocks =
        blocks.forM (m := M) fun b => (do let _ ← repart env order verbose file (some n) b buf mem; pure ()) := by
  intro blocks
  induction blocks with
  | nil => intro _; rfl
  | cons b bs ih =>
    intro h
    rw [repartJobs, repartJob_eq env order gnu verbose file b n buf mem hf (h b (by simp)) hn, ih fun c hc => h c (by simp [hc])]
    funext w
    show (M.bind _ _) w = (M.bind (M.bind _ _) _) w
    simp only [M.bind]
    cases repart env order verbose file (some n) b buf mem w <;> rfl

/-- **C95, bigfile-repartition**, with names of blocks: the jobs of C79, for the number of files given. -/
theorem C95_repartition_script (env : Env) (sort : List CStr → List CStr) (order : List Key → List Key) (gnu : Bool) (gs : List Given) (args : List CStr)
    (file : CStr) (n : Nat) (blocks : List CStr) (verbose : Bool) (buf : Int) (mem : Mem)
    (h : Understood false (takesOf b!"v") gs (file :: decStr n :: blocks) args) (hn : n < 2147483648) (hv : verbose = true ↔ Has gs 'v'.toUInt8)
    (hne : blocks ≠ []) (hf : PlainName file) (hb : ∀ b ∈ blocks, PlainName b) :
    bigfileRepartition env sort order gnu args buf mem =
      blocks.forM (m := M) fun b => (do let _ ← repart env order verbose file (some n) b buf mem; pure ()) := by
  unfold bigfileRepartition
  rw [scriptOpts_understood h, Bool.eq_iff_iff.mpr ((given_v h).trans hv.symm)]
  cases blocks with
  | nil => exact absurd rfl hne
  | cons b bs =>
    dsimp only
    rw [if_neg (show ¬ ((file :: decStr n :: b :: bs).drop 2).headD [] = [] from (hb b (by simp)).ne)]
    show repartJobs env order gnu verbose file (decStr n) buf mem ((b :: bs).flatMap words) = _
    rw [words_each hb]
    exact repartJobs_eq env order gnu verbose file n buf mem hf hn _ hb

/-- **C95, bigfile-repartition without `-v`**, although the usage does not mention that option: the blocks are renamed and nothing else
happens. -/
theorem C95_repartition_plain (env : Env) (sort : List CStr → List CStr) (order : List Key → List Key) (gnu : Bool) (args : List CStr)
    (file : CStr) (n : Nat) (blocks : List CStr) (buf : Int) (mem : Mem)
    (h : Understood false (takesOf b!"v") [] (file :: decStr n :: blocks) args) (hn : n < 2147483648)
    (hne : blocks ≠ []) (hf : PlainName file) (hb : ∀ b ∈ blocks, PlainName b) :
    bigfileRepartition env sort order gnu args buf mem =
      blocks.forM (m := M) fun b => (do let _ ← renameTool file b (backup b); pure ()) := by
  rw [C95_repartition_script env sort order gnu [] args file n blocks false buf mem h hn (by simp [Has]) hne hf hb]
  congr 1
  funext b w
  show (M.bind (M.bind _ _) _) w = (M.bind _ _) w
  simp only [M.bind]
  cases renameTool file b (backup b) w with
  | ok r w1 => cases r <;> rfl
  | _ => rfl

/-- **C95, bigfile-rename and bigfile-rm.** -/
theorem C95_rename_rm (order : List Key → List Key) (file block newname : CStr) (blocks : List CStr) (hf : PlainName file)
    (hb : ∀ b ∈ blocks, PlainName b) :
    bigfileRename [file, block, newname] = renameTool file block newname ∧ bigfileRm order (file :: blocks) = rmTool order file blocks := by
  have hfh : file ≠ b!"-h" := by rintro rfl; exact hf.noDash rfl
  constructor
  · unfold bigfileRename
    rw [if_neg (by exact hfh)]
    rfl
  · unfold bigfileRm
    rw [if_neg (by exact hfh)]
    show rmTool order file (blocks.flatMap words) = _
    rw [words_each hb]

/-- **C95, the scripts, unknown options and `-h`**: nothing happens. -/
theorem C95_scripts_usage (env : Env) (sort : List CStr → List CStr) (order : List Key → List Key) (gnu : Bool) (c : Byte) (s : CStr)
    (rest : List CStr) (buf : Int) (mem : Mem) (w : World) (hc : c ≠ 'v'.toUInt8) (hd : c ≠ '-'.toUInt8) :
    bigfileCheck env sort gnu ((45 :: c :: s) :: rest) buf mem w = .ok [] w ∧
    bigfileRepartition env sort order gnu ((45 :: c :: s) :: rest) buf mem w = .ok () w ∧
    bigfileRename (b!"-h" :: rest) w = .ok true w ∧ bigfileRm order (b!"-h" :: rest) w = .ok true w := by
  have h : scriptOpts ((45 :: c :: s) :: rest) = none := by
    have hd' : c ≠ 45 := hd
    have ht : takesOf b!"v" c = none := by
      rw [takesOf, if_neg (by exact fun he => hc he.symm)]
    unfold scriptOpts
    rw [getopt, if_neg (by intro he; injection he with _ he; injection he with he _; exact hd' he)]
    simp only [optWord, ht]
    rfl
  refine ⟨?_, ?_, rfl, rfl⟩
  · unfold bigfileCheck; rw [h]; rfl
  · unfold bigfileRepartition; rw [h]; rfl

/-! ## The hypotheses can be met -/

theorem exPlainName : PlainName b!"d" ∧ PlainName b!"z" ∧ PlainName b!"y" :=
  ⟨⟨by decide, by decide, by decide⟩, ⟨by decide, by decide, by decide⟩, ⟨by decide, by decide, by decide⟩⟩

example : Understood false (takesOf b!"v") [.flag 'v'.toUInt8] (b!"d" :: decStr 4 :: [b!"z", b!"y"]) [b!"-v", b!"d", b!"4", b!"z", b!"y"] :=
  Or.inl (.option (ws := [b!"-v"]) (.flag (by decide)) (.operands (by
    intro w hw
    simp only [List.mem_cons, List.not_mem_nil, or_false] at hw
    rcases hw with rfl | rfl | rfl | rfl
    · exact exPlainName.1.plain
    · exact (decStr_plain 4).plain
    · exact exPlainName.2.1.plain
    · exact exPlainName.2.2.plain)))

/-- Two blocks, with `-v`: both are there, in four files each, and the old ones are gone. -/
example : (match exTwoSrc exTreeWorld with
    | .ok _ w => match bigfileRepartition exEnv exSort exOrder true [b!"-v", b!"d", b!"4", b!"z", b!"y"] 500 exMem ⟨w.fs, fun _ => .none, 0⟩ with
      | .ok _ w => some ((w.fs.node (fileKey b!"d/z" (.data 3))).isSome, (w.fs.node (fileKey b!"d/y" (.data 3))).isSome,
          (w.fs.node (resolve b!"d/z-REPBAK")).isSome, (w.fs.node (resolve b!"d/y-REPBAK")).isSome)
      | _ => none
    | _ => none) = some (true, true, false, false) := by decide +kernel

/-- As the usage says, without `-v`: the blocks are gone under their names. -/
theorem C95_repartition_plain_example : (match exTwoSrc exTreeWorld with
    | .ok _ w => match bigfileRepartition exEnv exSort exOrder true [b!"d", b!"4", b!"z", b!"y"] 500 exMem ⟨w.fs, fun _ => .none, 0⟩ with
      | .ok _ w => some ((w.fs.node (resolve b!"d/z")).isSome, (w.fs.node (resolve b!"d/y")).isSome,
          (w.fs.node (fileKey b!"d/z-REPBAK" .header)).isSome, (w.fs.node (fileKey b!"d/y-REPBAK" .header)).isSome)
      | _ => none
    | _ => none) = some (false, false, true, true) := by decide +kernel

/-- The script checks both blocks; `z` was written twice (C77_rewritten). -/
example : (match exTwoSrc exTreeWorld with
    | .ok _ w => (bigfileCheck exEnv exSort true [b!"d", b!"z"] 500 exMem ⟨w.fs, fun _ => .none, 0⟩).val?
    | _ => none) = some b!"check sum failed z 54 00066\n" := by decide +kernel

end Verif
