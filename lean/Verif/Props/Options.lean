import Verif.Model.Options
import Verif.Spec.Options
import Verif.Props.Tools
/-!
# C95: the command lines of the programs
-/

set_option autoImplicit false

namespace Verif

open Spec

variable {takes : Byte → Option Bool} {permute : Bool}

/-! ## `getopt` -/

theorem getopt_option {g : Given} {ws : List CStr} (h : g.Written takes ws) (h45 : takes 45 = none) (rest : List CStr) :
    getopt permute takes (ws ++ rest) = (getopt permute takes rest).map fun r => (g.pair :: r.1, r.2) := by
  cases h with
  | @flag c h =>
    have hc : c ≠ 45 := by rintro rfl; rw [h45] at h; cases h
    rw [List.singleton_append, getopt, if_neg (by simpa using hc)]
    simp only [optWord, h, Option.map_some]
    rfl
  | @apart c v h =>
    have hc : c ≠ 45 := by rintro rfl; rw [h45] at h; cases h
    rw [List.cons_append, List.singleton_append, getopt, if_neg (by simpa using hc)]
    simp only [optWord, h, if_true]
    rfl
  | @joined c v h hv =>
    have hc : c ≠ 45 := by rintro rfl; rw [h45] at h; cases h
    rw [List.singleton_append, getopt, if_neg (by intro he; injection he with _ he; injection he with he _; exact hc he)]
    simp only [optWord, h, hv, if_false]
    rfl

theorem getopt_plain {w : CStr} (h : Plain w) (rest : List CStr) :
    getopt permute takes (w :: rest) =
      if permute then (getopt permute takes rest).map fun r => (r.1, w :: r.2) else some ([], w :: rest) := by
  rw [getopt, if_neg (by rintro rfl; rcases h with h | h <;> simp at h)]
  rintro c cs rfl
  rcases h with h | h <;> simp at h

theorem getopt_cluster {permute : Bool} {takes : Byte → Option Bool} {c : Byte} {w : CStr} {rest : List CStr} (h45 : takes 45 = none)
    (h : takes c = some false) (hw : w ≠ []) (hd : w.head? ≠ some 45) :
    getopt permute takes ((45 :: c :: w) :: rest) = (getopt permute takes ((45 :: w) :: rest)).map fun r => ((c, none) :: r.1, r.2) := by
  have hc : c ≠ 45 := by rintro rfl; rw [h45] at h; cases h
  cases w with
  | nil => exact absurd rfl hw
  | cons d w =>
    have hd : d ≠ 45 := by simpa using hd
    rw [getopt, if_neg (by intro he; injection he with _ he; injection he with he _; exact hc he)]
    rw [getopt, if_neg (by intro he; injection he with _ he; injection he with he _; exact hd he)]
    have ho : optWord takes (c :: d :: w) = (optWord takes (d :: w)).map fun r => ((c, none) :: r.1, r.2) := by
      rw [optWord, h]
    simp only [ho]
    cases optWord takes (d :: w) with
    | none => rfl
    | some r =>
      obtain ⟨os, o⟩ := r
      cases o with
      | none =>
        simp only [Option.map_some]
        cases getopt permute takes rest <;> rfl
      | some x =>
        simp only [Option.map_some]
        cases rest with
        | nil => rfl
        | cons a rest => dsimp only; cases getopt permute takes rest <;> rfl

/-- **C95, how words are understood**, by any version of `getopt`: options in any order, written in either way, and after them the
operands. -/
theorem C95_getopt (permute : Bool) (takes : Byte → Option Bool) (gs : List Given) (ops words : List CStr) (h45 : takes 45 = none)
    (h : CmdLine takes gs ops words) : getopt permute takes words = some (gs.map Given.pair, ops) := by
  induction h with
  | @operands ops h =>
    induction ops with
    | nil => rw [getopt]; rfl
    | cons w ops ih =>
      rw [getopt_plain (h w (by simp))]
      cases permute with
      | false => rfl
      | true =>
        rw [if_pos rfl, ih fun x hx => h x (by simp [hx])]
        rfl
  | dashes ops => rw [getopt, if_pos rfl]; rfl
  | @option g gs ops ws rest h _ ih =>
    rw [getopt_option h h45, ih]
    rfl
  | cluster h hw hd _ ih => rw [getopt_cluster h45 h hw hd, ih]; rfl

/-- **C95, GNU**: operands and options in any order. -/
theorem C95_getopt_mixed (takes : Byte → Option Bool) (gs : List Given) (ops words : List CStr) (h45 : takes 45 = none)
    (h : Mixed takes gs ops words) : getopt true takes words = some (gs.map Given.pair, ops) := by
  induction h with
  | nil => rw [getopt]; rfl
  | operand h _ ih => rw [getopt_plain h, if_pos rfl, ih]; rfl
  | option h _ ih => rw [getopt_option h h45, ih]; rfl
  | cluster h hw hd _ ih => rw [getopt_cluster h45 h hw hd, ih]; rfl

/-- **C95, GNU, words that look like options.** A word that begins with `-` and a letter that is no option, such as a negative
number, makes the programs refuse the command line, wherever among the operands it is. -/
theorem C95_looks_like_option (takes : Byte → Option Bool) (gs : List Given) (ops before after : List CStr) (c : Byte) (s : CStr)
    (h45 : takes 45 = none) (h : Mixed takes gs ops before) (hc : takes c = none) (hd : c ≠ 45) :
    getopt true takes (before ++ (45 :: c :: s) :: after) = none := by
  induction h with
  | nil =>
    rw [List.nil_append, getopt, if_neg (by intro he; injection he with _ he; injection he with he _; exact hd he)]
    simp only [optWord, hc]
  | operand h _ ih => rw [List.cons_append, getopt_plain h, if_pos rfl, ih]; rfl
  | option h _ ih => rw [List.append_assoc, getopt_option h h45, ih]; rfl
  | cluster h hw hd _ ih => rw [List.cons_append, getopt_cluster h45 h hw hd, ← List.cons_append, ih]; rfl

/-- **C95, a value that is missing** at the end of the command line makes the programs refuse it. -/
theorem C95_missing_value (takes : Byte → Option Bool) (gs : List Given) (ops before : List CStr) (c : Byte)
    (h45 : takes 45 = none) (h : Mixed takes gs ops before) (hc : takes c = some true) :
    getopt true takes (before ++ [[45, c]]) = none := by
  have hd : c ≠ 45 := by rintro rfl; rw [h45] at hc; cases hc
  induction h with
  | nil =>
    rw [List.nil_append, getopt, if_neg (by intro he; injection he with _ he; injection he with he _; exact hd he)]
    simp only [optWord, hc, if_true]
  | operand h _ ih => rw [List.cons_append, getopt_plain h, if_pos rfl, ih]; rfl
  | option h _ ih => rw [List.append_assoc, getopt_option h h45, ih]; rfl
  | cluster h hw hd _ ih => rw [List.cons_append, getopt_cluster h45 h hw hd, ← List.cons_append, ih]; rfl

/-! ## The switches -/

theorem fold_last {σ α : Type} (f : σ → Byte × Option CStr → σ) (π : σ → α) (c : Byte) (p : CStr → α → α)
    (h1 : ∀ o v, π (f o (c, some v)) = p v (π o)) (h2 : ∀ o c' x, c' ≠ c → π (f o (c', x)) = π o) (h3 : ∀ o, π (f o (c, none)) = π o) :
    ∀ (gs : List Given) (o : σ), (lastValue c gs = none → π ((gs.map Given.pair).foldl f o) = π o) ∧
      ∀ v, lastValue c gs = some v → ∃ a, π ((gs.map Given.pair).foldl f o) = p v a := by
  intro gs
  induction gs with
  | nil => intro o; exact ⟨fun _ => rfl, fun v h => by cases h⟩
  | cons g gs ih =>
    intro o
    have ih' := ih (f o g.pair)
    rw [List.map_cons, List.foldl_cons]
    cases g with
    | flag c' =>
      have : π (f o (c', none)) = π o := by
        by_cases hc : c' = c
        · subst hc; exact h3 o
        · exact h2 o c' none hc
      exact ⟨fun h => (ih'.1 h).trans this, fun v h => ih'.2 v h⟩
    | value c' v =>
      cases hl : lastValue c gs with
      | some v' =>
        refine ⟨fun h => ?_, fun u h => ?_⟩
        · rw [lastValue, hl] at h; cases h
        · rw [lastValue, hl] at h
          injection h with h
          subst h
          exact ih'.2 _ hl
      | none =>
        by_cases hc : c' = c
        · subst hc
          refine ⟨fun h => ?_, fun u h => ?_⟩
          · rw [lastValue, hl, if_pos rfl] at h; cases h
          · rw [lastValue, hl, if_pos rfl] at h
            injection h with h
            subst h
            exact ⟨π o, (ih'.1 hl).trans (h1 o v)⟩
        · refine ⟨fun _ => (ih'.1 hl).trans (h2 o c' _ hc), fun u h => ?_⟩
          rw [lastValue, hl, if_neg hc] at h
          cases h

/-- An option with a value that does not depend on what was there before. -/
theorem fold_sets {σ α β : Type} (f : σ → Byte × Option CStr → σ) (π : σ → α) (c : Byte) (p : CStr → α → α)
    (h1 : ∀ o v, π (f o (c, some v)) = p v (π o)) (h2 : ∀ o c' x, c' ≠ c → π (f o (c', x)) = π o) (h3 : ∀ o, π (f o (c, none)) = π o)
    {gs : List Given} {text : β → CStr} {dflt x : β} (val : β → α) (hs : LastSets gs c text dflt x) (hp : ∀ a, p (text x) a = val x) (o : σ)
    (ho : π o = val dflt) : π ((gs.map Given.pair).foldl f o) = val x := by
  have h := fold_last f π c p h1 h2 h3 gs o
  rcases hs with ⟨hn, rfl⟩ | hv
  · rw [h.1 hn, ho]
  · obtain ⟨a, e⟩ := h.2 _ hv
    rw [e, hp]

/-- An option without value. -/
theorem fold_flag {σ : Type} (f : σ → Byte × Option CStr → σ) (π : σ → Bool) (c : Byte) (h1 : ∀ o x, π (f o (c, x)) = true)
    (h2 : ∀ o c' x, c' ≠ c → π (f o (c', x)) = π o) : ∀ (gs : List Given), (∀ v, Given.value c v ∉ gs) → ∀ (o : σ),
      (π ((gs.map Given.pair).foldl f o) = true ↔ π o = true ∨ Has gs c) := by
  intro gs
  induction gs with
  | nil =>
    intro _ o
    refine ⟨Or.inl, ?_⟩
    rintro (h | ⟨g, hg, _⟩)
    · exact h
    · cases hg
  | cons g gs ih =>
    intro hv o
    rw [List.map_cons, List.foldl_cons, ih (fun v hm => hv v (List.mem_cons_of_mem _ hm))]
    have hhas : Has (g :: gs) c ↔ g = .flag c ∨ Has gs c := by
      unfold Has
      simp [eq_comm]
    rw [hhas]
    cases g with
    | flag c' =>
      by_cases hc : c' = c
      · subst hc
        simp [Given.pair, h1]
      · simp only [Given.pair, h2 o c' none hc, Given.flag.injEq, hc, false_or]
    | value c' v =>
      have hc : c' ≠ c := by rintro rfl; exact hv v (by simp)
      simp only [Given.pair, h2 o c' (some v) hc, reduceCtorEq, false_or]

theorem understood {gs : List Given} {ops words : List CStr} (h45 : takes 45 = none) (h : Understood permute takes gs ops words) :
    getopt permute takes words = some (gs.map Given.pair, ops) := by
  rcases h with h | ⟨rfl, h⟩
  · exact C95_getopt _ _ _ _ _ h45 h
  · exact C95_getopt_mixed _ _ _ _ h45 h

theorem Spec.Given.Written.ok {g : Given} {ws : List CStr} (h : g.Written takes ws) :
    (∀ c, g = .flag c → takes c = some false) ∧ ∀ c v, g = .value c v → takes c = some true := by
  cases h <;> refine ⟨fun c hc => ?_, fun c v hc => ?_⟩ <;> cases hc <;> assumption

theorem understood_ok {gs : List Given} {ops words : List CStr} (h : Understood permute takes gs ops words) :
    ∀ g ∈ gs, (∀ c, g = .flag c → takes c = some false) ∧ ∀ c v, g = .value c v → takes c = some true := by
  rcases h with h | ⟨_, h⟩
  · induction h with
    | operands _ => intro g hg; cases hg
    | dashes _ => intro g hg; cases hg
    | option h _ ih =>
      intro g hg
      rcases List.mem_cons.mp hg with rfl | hg
      · exact h.ok
      · exact ih g hg
    | cluster h _ _ _ ih =>
      intro g hg
      rcases List.mem_cons.mp hg with rfl | hg
      · exact ⟨fun c hc => by cases hc; exact h, fun c v hc => by cases hc⟩
      · exact ih g hg
  · induction h with
    | nil => intro g hg; cases hg
    | operand _ _ ih => exact ih
    | option h _ ih =>
      intro g hg
      rcases List.mem_cons.mp hg with rfl | hg
      · exact h.ok
      · exact ih g hg
    | cluster h _ _ _ ih =>
      intro g hg
      rcases List.mem_cons.mp hg with rfl | hg
      · exact ⟨fun c hc => by cases hc; exact h, fun c v hc => by cases hc⟩
      · exact ih g hg

theorem scanPtrdiff_decStr (n : Nat) (h : n < 9223372036854775808) : scanPtrdiff (decStr n) = some (n, []) := by
  have := scanPtrdiff_aux n [] (by omega) (by omega) rfl
  rw [List.append_nil] at this
  rw [show decStr n = intStr n by unfold intStr; rw [if_neg (by omega)]; rfl, this, u64_of_nat (by omega)]

theorem atoi_decStr (n : Nat) (h : n < 2147483648) : atoi (decStr n) = n := by
  rw [show decStr n = intStr n by unfold intStr; rw [if_neg (by omega)]; rfl, atoi_intStr n h]

/-- The other letters leave the variable alone. -/
macro "other_letter " f:ident : tactic =>
  `(tactic| (intro o c x hc; unfold $f:ident; split <;> first | rfl | (rename_i he; cases he; exact absurd (by decide) hc)))

/-! ## The programs -/

/-- **C95, bigfile-copy.** The options `-f`, `-n` and `-B`, given in any order and in either way, mean the new file, the number of files and
the size of the buffer. -/
theorem C95_copy (env : Env) (gnu : Bool) (gs : List Given) (words : List CStr) (file block newblock newfile : CStr) (nfile : Option Nat)
    (buffersize : Nat) (buf : Int) (mem : Mem)
    (h : Understood gnu (takesOf b!"n:vB:f:") gs [file, block, newblock] words)
    (hf : LastSets gs 'f'.toUInt8 id file newfile) (hn : LastSets gs 'n'.toUInt8 countStr none nfile) (hn' : nfile.getD 0 < 2147483648)
    (hb : LastSets gs 'B'.toUInt8 decStr 268435456 buffersize) (hb' : buffersize < 9223372036854775808) :
    bigfileCopy env gnu words buf mem = copyMain env file block newfile newblock nfile buffersize buf mem := by
  have e1 : (((gs.map Given.pair).foldl copyOpt ⟨-1, 268435456, none⟩).newfile.getD file) = newfile :=
    fold_sets copyOpt (fun o => o.newfile.getD file) 'f'.toUInt8 (fun v _ => v) (fun _ _ => rfl)
      (by other_letter copyOpt) (fun _ => rfl) id hf (fun _ => rfl) _ rfl
  have e2 : ((gs.map Given.pair).foldl copyOpt ⟨-1, 268435456, none⟩).nfile = (nfile.map Int.ofNat).getD (-1) :=
    fold_sets copyOpt (fun o => o.nfile) 'n'.toUInt8 (fun v _ => atoi v) (fun _ _ => rfl)
      (by other_letter copyOpt) (fun _ => rfl)
      (fun x : Option Nat => (x.map Int.ofNat).getD (-1)) hn (by
        intro _
        cases nfile with
        | none => decide
        | some n => exact atoi_decStr n hn') _ rfl
  have e3 : ((gs.map Given.pair).foldl copyOpt ⟨-1, 268435456, none⟩).buffersize = buffersize :=
    fold_sets copyOpt (fun o => o.buffersize) 'B'.toUInt8 (fun v a => ((scanPtrdiff v).map Prod.fst).getD a) (fun _ _ => rfl)
      (by other_letter copyOpt) (fun _ => rfl) id hb (by
        intro a
        rw [scanPtrdiff_decStr _ hb']
        rfl) _ rfl
  unfold bigfileCopy
  rw [understood (by decide) h]
  dsimp only
  rw [e1, e2, e3]
  cases nfile with
  | none => rfl
  | some n =>
    simp only [Option.map_some, Option.getD_some, Int.ofNat_eq_natCast]
    rw [if_neg (by omega), if_neg (by omega)]
    rfl

theorem i64_u64 {x : Int} (h0 : -9223372036854775808 ≤ x) (h : x < 9223372036854775808) : i64 (u64 x : Int) = x := by
  by_cases hx : x < 0
  · rw [u64_neg hx (by omega)]
    unfold i64
    simp only
    split <;> omega
  · rw [u64_nonneg (by omega) (by omega)]
    unfold i64
    simp only
    split <;> omega

/-- `sscanf` with `%td` into a `ptrdiff_t`. -/
def scanOff (v : CStr) (a : Int) : Int := ((scanPtrdiff v).map fun r => i64 r.1).getD a

theorem scanOff_intStr (x a : Int) (hx : -9223372036854775808 ≤ x ∧ x < 9223372036854775808) : scanOff (intStr x) a = x := by
  have := scanPtrdiff_aux x [] hx.1 hx.2 rfl
  rw [List.append_nil] at this
  unfold scanOff
  rw [this, Option.map_some, Option.getD_some, i64_u64 hx.1 hx.2]

/-- The defaults of bigfile-cat. -/
abbrev catDefaults : CatOpts := ⟨false, 0, -1, 268435456, none⟩

/-- **C95, bigfile-cat**, for the options `-b`, `-o`, `-c` and `-B`. -/
theorem C95_cat (env : Env) (gnu : Bool) (gs : List Given) (words : List CStr) (file block : CStr) (binary : Bool) (start size : Int)
    (buffersize : Nat) (buf : Int) (mem : Mem)
    (h : Understood gnu (takesOf b!"bo:c:B:f:") gs [file, block] words)
    (hf : lastValue 'f'.toUInt8 gs = none) (hbin : binary = true ↔ Has gs 'b'.toUInt8)
    (ho : LastSets gs 'o'.toUInt8 intStr 0 start) (ho' : -9223372036854775808 ≤ start ∧ start < 9223372036854775808)
    (hc : LastSets gs 'c'.toUInt8 intStr (-1) size) (hc' : -9223372036854775808 ≤ size ∧ size < 9223372036854775808)
    (hb : LastSets gs 'B'.toUInt8 decStr 268435456 buffersize) (hb' : buffersize < 9223372036854775808) :
    bigfileCat env gnu words buf mem = catMain env file block binary start size buffersize buf mem := by
  have e1 : ((gs.map Given.pair).foldl catOpt catDefaults).fmt = none :=
    (fold_last catOpt (fun o => o.fmt) 'f'.toUInt8 (fun v _ => some v) (fun _ _ => rfl) (by other_letter catOpt) (fun _ => rfl) gs _).1 hf
  have e2 : ((gs.map Given.pair).foldl catOpt catDefaults).start = start :=
    fold_sets catOpt (fun o => o.start) 'o'.toUInt8 scanOff
      (fun _ _ => by rw [show 'o'.toUInt8 = 111 from rfl]; simp only [catOpt, scanOff])
      (by other_letter catOpt) (fun _ => rfl) id ho (fun a => scanOff_intStr start a ho') catDefaults rfl
  have e3 : ((gs.map Given.pair).foldl catOpt catDefaults).size = size :=
    fold_sets catOpt (fun o => o.size) 'c'.toUInt8 scanOff
      (fun _ _ => by rw [show 'c'.toUInt8 = 99 from rfl]; simp only [catOpt, scanOff])
      (by other_letter catOpt) (fun _ => rfl) id hc (fun a => scanOff_intStr size a hc') catDefaults rfl
  have e4 : ((gs.map Given.pair).foldl catOpt catDefaults).buffersize = buffersize :=
    fold_sets catOpt (fun o => o.buffersize) 'B'.toUInt8 (fun v a => ((scanPtrdiff v).map Prod.fst).getD a) (fun _ _ => rfl)
      (by other_letter catOpt) (fun _ => rfl) id hb (by
        intro a
        rw [scanPtrdiff_decStr _ hb']
        rfl) _ rfl
  have e5 : ((gs.map Given.pair).foldl catOpt catDefaults).binary = binary := by
    have := fold_flag catOpt (fun o => o.binary) 'b'.toUInt8 (fun _ _ => rfl) (by other_letter catOpt) gs
      (fun v hv => absurd ((understood_ok h _ hv).2 _ _ rfl) (by decide)) catDefaults
    rw [Bool.eq_iff_iff, this, hbin]
    simp
  unfold bigfileCat
  rw [understood (by decide) h]
  dsimp only
  rw [e1, e2, e3, e4, e5]
  rfl

/-- **C95, bigfile-create**, for the options `-n` and `-B`. -/
theorem C95_create (env : Env) (gnu : Bool) (gs : List Given) (words : List CStr) (file block dtype : CStr) (nmemb : Int) (buffersize : Nat)
    (buf : Int) (input : List Byte) (mem : Mem)
    (h : Understood gnu (takesOf b!"B:n:") gs [file, block, dtype] words)
    (hn : LastSets gs 'n'.toUInt8 intStr 1 nmemb) (hn' : -2147483648 ≤ nmemb ∧ nmemb < 2147483648)
    (hb : LastSets gs 'B'.toUInt8 decStr 268435456 buffersize) (hb' : buffersize < 9223372036854775808) :
    bigfileCreate env gnu words buf input mem = createMain env file block dtype nmemb buffersize buf input mem := by
  have e1 : ((gs.map Given.pair).foldl createOpt (268435456, 1)).2 = nmemb :=
    fold_sets createOpt (fun o => o.2) 'n'.toUInt8 (fun v a => ((scanInt v).map Prod.fst).getD a) (fun _ _ => rfl)
      (by other_letter createOpt) (fun _ => rfl) id hn (by
        intro a
        have := scanInt_intStr nmemb [] hn'.1 hn'.2 rfl
        rw [List.append_nil] at this
        rw [this]
        rfl) _ rfl
  have e2 : ((gs.map Given.pair).foldl createOpt (268435456, 1)).1 = buffersize :=
    fold_sets createOpt (fun o => o.1) 'B'.toUInt8 (fun v a => ((scanPtrdiff v).map Prod.fst).getD a) (fun _ _ => rfl)
      (by other_letter createOpt) (fun _ => rfl) id hb (by
        intro a
        rw [scanPtrdiff_decStr _ hb']
        rfl) _ rfl
  unfold bigfileCreate
  rw [understood (by decide) h]
  dsimp only
  rw [e1, e2]

/-- **C95, bigfile-set-attr**, for the options `-f`, `-t` and `-n`. -/
theorem C95_setAttr (env : Env) (sc : FloatScan) (gnu : Bool) (gs : List Given) (words : List CStr) (file block name : CStr) (force : Bool)
    (nmemb : Nat) (vals : List CStr) (buf : Int) (mem : Mem)
    (h : Understood gnu (takesOf b!"ft:n:") gs (file :: block :: name :: vals) words) (hv : vals ≠ [])
    (hforce : force = true ↔ Has gs 'f'.toUInt8) (hn : LastSets gs 'n'.toUInt8 decStr 0 nmemb) (hn' : nmemb < 2147483648) :
    bigfileSetAttr env sc gnu words buf mem = setAttrMain env sc file block name force (lastValue 't'.toUInt8 gs) nmemb vals buf mem := by
  have e1 : ((gs.map Given.pair).foldl setOpt ⟨false, none, 0⟩).nmemb = nmemb :=
    fold_sets setOpt (fun o => o.nmemb) 'n'.toUInt8 (fun v _ => atoi v) (fun _ _ => rfl)
      (by other_letter setOpt) (fun _ => rfl) (fun n : Nat => (n : Int)) hn (fun _ => atoi_decStr _ hn') _ rfl
  have e2 : ((gs.map Given.pair).foldl setOpt ⟨false, none, 0⟩).dtype = lastValue 't'.toUInt8 gs := by
    have := fold_last setOpt (fun o => o.dtype) 't'.toUInt8 (fun v _ => some v) (fun _ _ => rfl) (by other_letter setOpt) (fun _ => rfl) gs
      ⟨false, none, 0⟩
    cases hl : lastValue 't'.toUInt8 gs with
    | none => exact this.1 hl
    | some v => obtain ⟨_, e⟩ := this.2 v hl; exact e
  have e3 : ((gs.map Given.pair).foldl setOpt ⟨false, none, 0⟩).force = force := by
    have := fold_flag setOpt (fun o => o.force) 'f'.toUInt8 (fun _ _ => rfl) (by other_letter setOpt) gs
      (fun v hv => absurd ((understood_ok h _ hv).2 _ _ rfl) (by decide)) ⟨false, none, 0⟩
    rw [Bool.eq_iff_iff, this, hforce]
    simp
  unfold bigfileSetAttr
  rw [understood (by decide) h]
  cases vals with
  | nil => exact absurd rfl hv
  | cons v vs =>
    dsimp only
    rw [e1, e2, e3]

/-- Programs whose only option is `-l`. -/
theorem long_flag {gs : List Given} {ops words : List CStr} (h : Understood permute (takesOf b!"l") gs ops words) :
    (!(gs.map Given.pair).isEmpty) = true ↔ Has gs 'l'.toUInt8 := by
  have hok := understood_ok h
  have hl : ∀ c b, takesOf b!"l" c = some b → c = 'l'.toUInt8 ∧ b = false := by
    intro c b hc
    unfold takesOf at hc
    split at hc
    · rename_i he
      injection hc with hc
      exact ⟨he.symm, hc.symm⟩
    · cases hc
  cases gs with
  | nil =>
    constructor
    · intro h; cases h
    · rintro ⟨g, hg, _⟩
      cases hg
  | cons g gs =>
    refine ⟨fun _ => ⟨g, by simp, ?_⟩, fun _ => rfl⟩
    cases g with
    | flag c => rw [(hl c _ ((hok _ (by simp)).1 c rfl)).1]
    | value c v => exact absurd (hl c _ ((hok _ (by simp)).2 c v rfl)).2 (by decide)

/-- **C95, bigfile-get-attr**, for the option `-l`. -/
theorem C95_getAttr (env : Env) (gnu : Bool) (gs : List Given) (words : List CStr) (file block : CStr) (long : Bool) (names : List CStr)
    (h : Understood gnu (takesOf b!"l") gs (file :: block :: names) words) (hl : long = true ↔ Has gs 'l'.toUInt8) :
    bigfileGetAttr env gnu words = getAttrMain env file block long names := by
  unfold bigfileGetAttr
  rw [understood (by decide) h]
  dsimp only
  rw [Bool.eq_iff_iff.mpr ((long_flag h).trans hl.symm)]

/-- **C95, bigfile-ls**, for the option `-l`: all blocks, or one. -/
theorem C95_ls (env : Env) (sort : List CStr → List CStr) (gnu : Bool) (gs : List Given) (words : List CStr) (file : CStr) (block : Option CStr)
    (long : Bool) (h : Understood gnu (takesOf b!"l") gs (file :: block.toList) words) (hl : long = true ↔ Has gs 'l'.toUInt8) :
    bigfileLs env sort gnu words = lsMain env sort long file block := by
  unfold bigfileLs
  rw [understood (by decide) h]
  rw [← Bool.eq_iff_iff.mpr ((long_flag h).trans hl.symm)]
  cases block <;> rfl

/-! ## Refused command lines -/

/-- **C95, the number of operands.** If it is wrong the programs end with status 1 and do nothing. (bigfile-ls ignores operands after
the second.) -/
theorem C95_wrong_number (env : Env) (sc : FloatScan) (sort : List CStr → List CStr) (gnu : Bool) (gs : List Given) (ops words : List CStr)
    (buf : Int) (input : List Byte) (mem : Mem) (w : World) :
    (Understood gnu (takesOf b!"n:vB:f:") gs ops words → ops.length ≠ 3 → bigfileCopy env gnu words buf mem w = .ok .failed w) ∧
    (Understood gnu (takesOf b!"bo:c:B:f:") gs ops words → ops.length ≠ 2 → bigfileCat env gnu words buf mem w = .ok (.failed, []) w) ∧
    (Understood gnu (takesOf b!"B:n:") gs ops words → ops.length ≠ 3 → bigfileCreate env gnu words buf input mem w = .ok .failed w) ∧
    (Understood gnu (takesOf b!"ft:n:") gs ops words → ops.length < 4 → bigfileSetAttr env sc gnu words buf mem w = .ok .failed w) ∧
    (Understood gnu (takesOf b!"l") gs ops words → ops.length < 2 → bigfileGetAttr env gnu words w = .ok (.failed, []) w) ∧
    (Understood gnu (takesOf b!"l") gs ops words → ops.length < 1 → bigfileLs env sort gnu words w = .ok (.failed, []) w) := by
  refine ⟨fun h hl => ?_, fun h hl => ?_, fun h hl => ?_, fun h hl => ?_, fun h hl => ?_, fun h hl => ?_⟩
  · unfold bigfileCopy
    rw [understood (by decide) h]
    rcases ops with _ | ⟨a, _ | ⟨b, _ | ⟨c, _ | ⟨d, l⟩⟩⟩⟩ <;> first | rfl | (simp at hl; try omega)
  · unfold bigfileCat
    rw [understood (by decide) h]
    rcases ops with _ | ⟨a, _ | ⟨b, _ | ⟨c, _ | ⟨d, l⟩⟩⟩⟩ <;> first | rfl | (simp at hl; try omega)
  · unfold bigfileCreate
    rw [understood (by decide) h]
    rcases ops with _ | ⟨a, _ | ⟨b, _ | ⟨c, _ | ⟨d, l⟩⟩⟩⟩ <;> first | rfl | (simp at hl; try omega)
  · unfold bigfileSetAttr
    rw [understood (by decide) h]
    rcases ops with _ | ⟨a, _ | ⟨b, _ | ⟨c, _ | ⟨d, l⟩⟩⟩⟩ <;> first | rfl | (simp at hl; try omega)
  · unfold bigfileGetAttr
    rw [understood (by decide) h]
    rcases ops with _ | ⟨a, _ | ⟨b, _ | ⟨c, _ | ⟨d, l⟩⟩⟩⟩ <;> first | rfl | (simp at hl; try omega)
  · unfold bigfileLs
    rw [understood (by decide) h]
    rcases ops with _ | ⟨a, _ | ⟨b, _ | ⟨c, _ | ⟨d, l⟩⟩⟩⟩ <;> first | rfl | (simp at hl; try omega)

/-- **C95, unknown options.** A letter that is no option among the options makes the programs end with status 1 and do nothing. -/
theorem C95_unknown (env : Env) (sc : FloatScan) (sort : List CStr → List CStr) (gs : List Given) (ops before after : List CStr) (c : Byte)
    (s : CStr) (buf : Int) (input : List Byte) (mem : Mem) (w : World) (hd : c ≠ '-'.toUInt8) :
    (Mixed (takesOf b!"n:vB:f:") gs ops before → takesOf b!"n:vB:f:" c = none →
      bigfileCopy env true (before ++ (45 :: c :: s) :: after) buf mem w = .ok .failed w) ∧
    (Mixed (takesOf b!"bo:c:B:f:") gs ops before → takesOf b!"bo:c:B:f:" c = none →
      bigfileCat env true (before ++ (45 :: c :: s) :: after) buf mem w = .ok (.failed, []) w) ∧
    (Mixed (takesOf b!"B:n:") gs ops before → takesOf b!"B:n:" c = none →
      bigfileCreate env true (before ++ (45 :: c :: s) :: after) buf input mem w = .ok .failed w) ∧
    (Mixed (takesOf b!"ft:n:") gs ops before → takesOf b!"ft:n:" c = none →
      bigfileSetAttr env sc true (before ++ (45 :: c :: s) :: after) buf mem w = .ok .failed w) ∧
    (Mixed (takesOf b!"l") gs ops before → takesOf b!"l" c = none →
      bigfileGetAttr env true (before ++ (45 :: c :: s) :: after) w = .ok (.failed, []) w ∧
      bigfileLs env sort true (before ++ (45 :: c :: s) :: after) w = .ok (.failed, []) w) := by
  refine ⟨fun h hc => ?_, fun h hc => ?_, fun h hc => ?_, fun h hc => ?_, fun h hc => ⟨?_, ?_⟩⟩
  · unfold bigfileCopy; rw [C95_looks_like_option _ gs ops _ _ _ _ (by decide) h hc hd]; rfl
  · unfold bigfileCat; rw [C95_looks_like_option _ gs ops _ _ _ _ (by decide) h hc hd]; rfl
  · unfold bigfileCreate; rw [C95_looks_like_option _ gs ops _ _ _ _ (by decide) h hc hd]; rfl
  · unfold bigfileSetAttr; rw [C95_looks_like_option _ gs ops _ _ _ _ (by decide) h hc hd]; rfl
  · unfold bigfileGetAttr; rw [C95_looks_like_option _ gs ops _ _ _ _ (by decide) h hc hd]; rfl
  · unfold bigfileLs; rw [C95_looks_like_option _ gs ops _ _ _ _ (by decide) h hc hd]; rfl

/-- **C95, a missing value.** If the command line ends with an option that takes a value, and the value is missing, the programs end with
status 1 and do nothing. -/
theorem C95_no_value (env : Env) (sc : FloatScan) (gs : List Given) (ops before : List CStr) (c : Byte)
    (buf : Int) (input : List Byte) (mem : Mem) (w : World) :
    (Mixed (takesOf b!"n:vB:f:") gs ops before → takesOf b!"n:vB:f:" c = some true →
      bigfileCopy env true (before ++ [[45, c]]) buf mem w = .ok .failed w) ∧
    (Mixed (takesOf b!"bo:c:B:f:") gs ops before → takesOf b!"bo:c:B:f:" c = some true →
      bigfileCat env true (before ++ [[45, c]]) buf mem w = .ok (.failed, []) w) ∧
    (Mixed (takesOf b!"B:n:") gs ops before → takesOf b!"B:n:" c = some true →
      bigfileCreate env true (before ++ [[45, c]]) buf input mem w = .ok .failed w) ∧
    (Mixed (takesOf b!"ft:n:") gs ops before → takesOf b!"ft:n:" c = some true →
      bigfileSetAttr env sc true (before ++ [[45, c]]) buf mem w = .ok .failed w) := by
  refine ⟨fun h hc => ?_, fun h hc => ?_, fun h hc => ?_, fun h hc => ?_⟩
  · unfold bigfileCopy; rw [C95_missing_value _ gs ops _ _ (by decide) h hc]; rfl
  · unfold bigfileCat; rw [C95_missing_value _ gs ops _ _ (by decide) h hc]; rfl
  · unfold bigfileCreate; rw [C95_missing_value _ gs ops _ _ (by decide) h hc]; rfl
  · unfold bigfileSetAttr; rw [C95_missing_value _ gs ops _ _ (by decide) h hc]; rfl

theorem intStr_neg {x : Int} (hx : x < 0) : ∃ c s, intStr x = 45 :: c :: s ∧ IsDigit 10 c := by
  unfold intStr
  rw [if_pos hx]
  cases h : decStr x.natAbs with
  | nil => exact absurd h (decStr_ne_nil _)
  | cons c s => exact ⟨c, s, rfl, decStr_digits _ c (by rw [h]; simp)⟩

/-- **C95, negative values.** With GNU's `getopt`, `bigfile-set-attr` refuses to store a negative number: it takes it for an option, ends with
status 1 and stores nothing. -/
theorem C95_negative (env : Env) (sc : FloatScan) (gs : List Given) (ops before after : List CStr) (x : Int) (buf : Int) (mem : Mem) (w : World)
    (h : Mixed (takesOf b!"ft:n:") gs ops before) (hx : x < 0) :
    bigfileSetAttr env sc true (before ++ intStr x :: after) buf mem w = .ok .failed w := by
  obtain ⟨c, s, e, hc⟩ := intStr_neg hx
  have hr := hc.range (by omega)
  rw [e]
  have hne : ∀ d : Byte, (d.toNat < 48 ∨ 57 < d.toNat) → c ≠ d := by
    rintro d hd rfl
    obtain ⟨v, hv, hv2⟩ := hc
    rw [hv2, digitChar_toNat v (by omega)] at hd
    split at hd <;> omega
  refine (C95_unknown env sc id gs ops before after c s buf [] mem w (hne _ (by decide))).2.2.2.1 h ?_
  unfold takesOf
  simp only [takesOf]
  rw [if_neg (by decide), if_neg (hne _ (by decide)).symm, if_pos (by decide), if_neg (hne _ (by decide)).symm, if_pos (by decide),
    if_neg (hne _ (by decide)).symm]

/-- **C95, values of any sign.** After `--` they are stored, and with a `getopt` that stops at the first operand also without. -/
theorem C95_set_stores_partial (env : Env) (sc : FloatScan) (K : Kind) (A : Content) (gnu : Bool) (gs : List Given) (words : List CStr)
    (file block name dt : CStr) (force : Bool) (t : IntTy) (xs : List Int) (buf : Int) (mem : Mem) (w : World) (hnf : w.faults = noFaults)
    (hf : file ≠ []) (hfl : file.length ≤ 8192) (hfile : (w.fs.node (resolve file)).isSome = true)
    (hsrc : OnDisk env K w.fs (pathJoin file block) A) (hdt : dtypeNormalize env.m dt = t.dtype env.m.order) (hxs : xs ≠ [])
    (hall : ∀ x ∈ xs, t.holds x) (hsz : xs.length * t.width < 1073741824) (hname : name ≠ []) (hclean : Clean name)
    (hlen : name.length < 9223372036854775808)
    (h : Understood gnu (takesOf b!"ft:n:") gs (file :: block :: name :: xs.map intStr) words)
    (ht : lastValue 't'.toUInt8 gs = some dt) (hn : lastValue 'n'.toUInt8 gs = some (decStr xs.length))
    (hforce : force = true ↔ Has gs 'f'.toUInt8) :
    ∃ w' v, bigfileSetAttr env sc gnu words buf mem w = .ok .done w' ∧
      OnDisk env K w'.fs (pathJoin file block) (A.withAttr name v) ∧ IsInts env.m.order t xs v ∧
      SameOutside (pathJoin file block) w.fs w'.fs := by
  have hw : 0 < t.width := by cases t <;> decide
  have hl : xs.length < 2147483648 := by
    have := Nat.mul_le_mul_left xs.length hw
    omega
  rw [C95_setAttr env sc gnu gs words file block name force xs.length (xs.map intStr) buf mem h (by simpa using hxs) hforce
    (Or.inr hn) hl, ht]
  obtain ⟨w', v, h1, h2, h3, h4, _⟩ := C68_set_partial env sc K A file block name force dt t xs.length xs buf mem w hnf hf hfl hfile hsrc hdt hxs
    hall hsz hname hclean hlen (Or.inl rfl)
  exact ⟨w', v, h1, h2, h3, h4⟩

/-! ## Examples -/

/-- `bigfile-copy -n 2 -fe -B 100 -n 3 d z y`. -/
def exCopyWords : List CStr := [b!"-n", b!"2", b!"-fe", b!"-B", b!"100", b!"-n", b!"3", b!"d", b!"z", b!"y"]

/-- The options of `exCopyWords`. -/
def exCopyGiven : List Given := [.value 110 b!"2", .value 102 b!"e", .value 66 b!"100", .value 110 b!"3"]

theorem exPlain (ops : List CStr) (h : (ops.all fun w => decide (w.head? ≠ some 45)) = true) : ∀ w ∈ ops, Plain w := by
  intro w hw
  have := List.all_eq_true.mp h w hw
  exact Or.inl (of_decide_eq_true this)

theorem exCopyLine : CmdLine (takesOf b!"n:vB:f:") exCopyGiven [b!"d", b!"z", b!"y"] exCopyWords :=
  .option (ws := [b!"-n", b!"2"]) (.apart (by decide)) (.option (ws := [b!"-fe"]) (.joined (by decide) (by decide))
    (.option (ws := [b!"-B", b!"100"]) (.apart (by decide)) (.option (ws := [b!"-n", b!"3"]) (.apart (by decide))
      (.operands (exPlain _ (by decide))))))

/-- The hypotheses of `C95_copy`: the last number of files counts. -/
example (buf : Int) (mem : Mem) : bigfileCopy exEnv false exCopyWords buf mem = copyMain exEnv b!"d" b!"z" b!"e" b!"y" (some 3) 100 buf mem :=
  C95_copy exEnv false exCopyGiven exCopyWords b!"d" b!"z" b!"y" b!"e" (some 3) 100 buf mem (Or.inl exCopyLine) (Or.inr (by decide))
    (Or.inr (by decide)) (by decide) (Or.inr (by decide)) (by decide)

/-- With GNU operands and options can be mixed: `bigfile-cat d -c 7 z -b`. -/
example (buf : Int) (mem : Mem) :
    bigfileCat exEnv true [b!"d", b!"-c", b!"7", b!"z", b!"-b"] buf mem = catMain exEnv b!"d" b!"z" true 0 7 268435456 buf mem :=
  C95_cat exEnv true [.value 99 b!"7", .flag 98] _ b!"d" b!"z" true 0 7 268435456 buf mem
    (Or.inr ⟨rfl, .operand (exPlain [b!"d"] (by decide) _ (by simp)) (.option (ws := [b!"-c", b!"7"]) (.apart (by decide))
      (.operand (exPlain [b!"z"] (by decide) _ (by simp)) (.option (ws := [b!"-b"]) (.flag (by decide)) .nil)))⟩)
    (by decide) ⟨fun _ => ⟨.flag 98, by simp, rfl⟩, fun _ => rfl⟩ (Or.inl ⟨by decide, rfl⟩) (by decide) (Or.inr (by decide)) (by decide)
    (Or.inl ⟨by decide, rfl⟩) (by decide)

/-- `bigfile-create -n3 d x f8` and `bigfile-get-attr -l -- d z a` and `bigfile-ls -l d`. -/
example (buf : Int) (input : List Byte) (mem : Mem) :
    bigfileCreate exEnv false [b!"-n3", b!"d", b!"x", b!"f8"] buf input mem = createMain exEnv b!"d" b!"x" b!"f8" 3 268435456 buf input mem ∧
    bigfileGetAttr exEnv false [b!"-l", b!"--", b!"d", b!"z", b!"-a"] = getAttrMain exEnv b!"d" b!"z" true [b!"-a"] ∧
    bigfileLs exEnv id false [b!"d"] = lsMain exEnv id false b!"d" none :=
  ⟨C95_create exEnv false [.value 110 b!"3"] _ _ _ _ 3 268435456 buf input mem
    (Or.inl (.option (ws := [b!"-n3"]) (.joined (by decide) (by decide)) (.operands (exPlain _ (by decide)))))
    (Or.inr (by decide)) (by decide) (Or.inl ⟨by decide, rfl⟩) (by decide),
   C95_getAttr exEnv false [.flag 108] _ _ _ true [b!"-a"] (Or.inl (.option (ws := [b!"-l"]) (.flag (by decide)) (.dashes _)))
    ⟨fun _ => ⟨.flag 108, by simp, rfl⟩, fun _ => rfl⟩,
   C95_ls exEnv id false [] _ _ none false (Or.inl (.operands (exPlain _ (by decide)))) ⟨fun h => (by cases h), fun h => (by rcases h with ⟨g, hg, _⟩; cases hg)⟩⟩

/-- bigfile-ls ignores all blocks but the first. -/
theorem C95_ls_ignores (env : Env) (sort : List CStr → List CStr) (gnu : Bool) (gs : List Given) (words words' : List CStr) (file block : CStr)
    (more : List CStr) (h : Understood gnu (takesOf b!"l") gs (file :: block :: more) words)
    (h' : Understood gnu (takesOf b!"l") gs [file, block] words') : bigfileLs env sort gnu words = bigfileLs env sort gnu words' := by
  unfold bigfileLs
  rw [understood (by decide) h, understood (by decide) h']

/-- The attribute `a` of block `z` is set to -5: `bigfile-set-attr -t i4 -n 1 d z a -5`, and with `--` after the options. -/
def exSetNegative (gnu : Bool) (dashes : List CStr) : M Exit := do
  let _ ← exCopySrc
  bigfileSetAttr exEnv exScan gnu ([b!"-t", b!"i4", b!"-n", b!"1"] ++ dashes ++ [b!"d", b!"z", b!"a", b!"-5"]) 500 exMem

/-- With GNU's `getopt` it is refused unless `--` is given; with the other one it is stored. -/
theorem C95_negative_example : (exSetNegative true [] exTreeWorld).val? = some .failed ∧
    (exSetNegative true [b!"--"] exTreeWorld).val? = some .done ∧ (exSetNegative false [] exTreeWorld).val? = some .done ∧
    (exSetNegative true [b!"--"] exTreeWorld).fs?.map (fun fs => fs.bytes (fileKey b!"d/z" .attrV2)) =
      some b!"a <i4 1 FBFFFFFF #HUMANE [ -5 ]\n" := by decide +kernel

-- `bigfile-cat -bo5 snap Pos`
example : CmdLine (takesOf b!"bo:c:B:f:") [.flag 'b'.toUInt8, .value 'o'.toUInt8 b!"5"] [b!"snap", b!"Pos"] [b!"-bo5", b!"snap", b!"Pos"] :=
  .cluster (by decide) (by decide) (by decide)
    (.option (ws := [b!"-o5"]) (.joined (by decide) (by decide)) (.operands (by
      intro w hw
      simp only [List.mem_cons, List.not_mem_nil, or_false] at hw
      rcases hw with rfl | rfl <;> exact Or.inl (by decide))))

end Verif
