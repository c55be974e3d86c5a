import Verif.Model.OptionsMpi
import Verif.Props.Options
/-!
# C95: the command lines of the MPI programs, and of bigfile-copy in bigfile-repartition
-/

set_option autoImplicit false

namespace Verif

open Spec

/-- **C95, bigfile-repartition.** With `-v` the script calls bigfile-copy as its usage says (41). Without `-v` the call has a word too many,
whatever the version of `getopt`: bigfile-copy ends with status 1 and nothing changes. So `repart` (`Model/Scripts.lean`) is right about
both. -/
theorem C95_repartition (env : Env) (gnu : Bool) (file block : CStr) (n : Nat) (buf : Int) (mem : Mem) (w : World) (hn : n < 2147483648)
    (hf : Plain file) (hb : Plain (backup block)) (hb' : Plain block) :
    bigfileCopy env gnu [b!"-v", b!"-n", decStr n, file, backup block, block] buf mem =
      copyMain env file (backup block) file block (some n) 268435456 buf mem ∧
    bigfileCopy env gnu [b!"0", b!"-n", decStr n, file, backup block, block] buf mem w = .ok .failed w := by
  have hp : ∀ x ∈ [file, backup block, block], Plain x := by
    intro x hx
    simp only [List.mem_cons, List.not_mem_nil, or_false] at hx
    rcases hx with rfl | rfl | rfl <;> assumption
  constructor
  · refine C95_copy env gnu [.flag 118, .value 110 (decStr n)] _ file (backup block) block file (some n) 268435456 buf mem
      (Or.inl (.option (ws := [b!"-v"]) (.flag (by decide)) (.option (ws := [b!"-n", decStr n]) (.apart (by decide)) (.operands hp))))
      (Or.inl ⟨rfl, rfl⟩) (Or.inr rfl) hn (Or.inl ⟨rfl, rfl⟩) (by decide)
  · have h0 : Plain b!"0" := Or.inl (by decide)
    unfold bigfileCopy
    rw [getopt_plain h0]
    cases gnu with
    | false => rfl
    | true =>
      have := understood (permute := true) (takes := takesOf b!"n:vB:f:") (gs := [.value 110 (decStr n)]) (ops := [file, backup block, block])
        (words := [b!"-n", decStr n, file, backup block, block]) (by decide)
        (Or.inl (.option (ws := [b!"-n", decStr n]) (.apart (by decide)) (.operands hp)))
      rw [if_pos rfl, this]
      rfl

theorem copyMpiOpt_alias (gs : List Given) (o : CopyOpts) :
    (gs.map Given.pair).foldl copyMpiOpt o = ((gs.map (Given.alias 'N'.toUInt8 'n'.toUInt8)).map Given.pair).foldl copyMpiOpt o := by
  induction gs generalizing o with
  | nil => rfl
  | cons g gs ih =>
    simp only [List.map_cons, List.foldl_cons]
    rw [ih]
    congr 1
    cases g with
    | flag c => rfl
    | value c v =>
      unfold Given.alias
      simp only
      split
      · subst_vars; rfl
      · rfl

/-- The switch without `-N`. -/
def noN (o : CopyOpts) (x : Byte × Option CStr) : CopyOpts := if x.1 = 'N'.toUInt8 then o else copyMpiOpt o x

/-- **C95, bigfile-copy-mpi.** As bigfile-copy, but the size of the buffer is `-b`, and `-N` is another name of `-n`. -/
theorem C95_copyMpi (gnu : Bool) (gs gs' : List Given) (words : List CStr) (file block newblock newfile : CStr) (nfile : Option Nat)
    (buffersize : Nat) (h : Understood gnu (takesOf b!"n:N:vb:f:") gs [file, block, newblock] words)
    (hgs : gs' = gs.map (Given.alias 'N'.toUInt8 'n'.toUInt8))
    (hf : LastSets gs' 'f'.toUInt8 id file newfile) (hn : LastSets gs' 'n'.toUInt8 countStr none nfile) (hn' : nfile.getD 0 < 2147483648)
    (hb : LastSets gs' 'b'.toUInt8 decStr 268435456 buffersize) (hb' : buffersize < 9223372036854775808) :
    copyMpiArgs gnu words = some ⟨file, block, newfile, newblock, nfile, buffersize⟩ := by
  have halias : ∀ v, Given.value 'N'.toUInt8 v ∉ gs' := by
    intro v hv
    rw [hgs, List.mem_map] at hv
    obtain ⟨g, _, hg⟩ := hv
    cases g with
    | flag c => cases hg
    | value c v' =>
      unfold Given.alias at hg
      simp only at hg
      split at hg
      · injection hg with h1 _; exact absurd h1 (by decide)
      · rename_i hne; injection hg with h1 _; exact hne h1
  have e1 : (((gs'.map Given.pair).foldl copyMpiOpt ⟨-1, 268435456, none⟩).newfile.getD file) = newfile :=
    fold_sets copyMpiOpt (fun o => o.newfile.getD file) 'f'.toUInt8 (fun v _ => v) (fun _ _ => rfl)
      (by other_letter copyMpiOpt) (fun _ => rfl) id hf (fun _ => rfl) _ rfl
  -- without `-N` the program is this one
  have hsame : ∀ (l : List Given) (o : CopyOpts), (∀ v, Given.value 'N'.toUInt8 v ∉ l) →
      (l.map Given.pair).foldl copyMpiOpt o = (l.map Given.pair).foldl noN o := by
    intro l
    induction l with
    | nil => intro o _; rfl
    | cons g l ih =>
      intro o hl
      simp only [List.map_cons, List.foldl_cons]
      rw [ih _ (fun v hv => hl v (List.mem_cons_of_mem _ hv))]
      congr 1
      cases g with
      | flag c =>
        by_cases hc : c = 'N'.toUInt8
        · subst hc; rfl
        · exact (if_neg hc).symm
      | value c v =>
        have hc : c ≠ 'N'.toUInt8 := by rintro rfl; exact hl v (by simp)
        exact (if_neg hc).symm
  have e2 : ((gs'.map Given.pair).foldl copyMpiOpt ⟨-1, 268435456, none⟩).nfile = (nfile.map Int.ofNat).getD (-1) := by
    rw [hsame _ _ halias]
    exact fold_sets noN (fun o => o.nfile) 'n'.toUInt8 (fun v _ => atoi v) (fun _ _ => rfl)
      (by
        intro o c x hc
        unfold noN
        split
        · rfl
        · rename_i hN
          unfold copyMpiOpt
          split <;> first | rfl | (rename_i he; cases he; exact absurd (by decide) hc) | (rename_i he; cases he; exact absurd rfl hN)) (fun _ => rfl)
      (fun x : Option Nat => (x.map Int.ofNat).getD (-1)) hn (by
        intro _
        cases nfile with
        | none => decide
        | some n => exact atoi_decStr n hn') _ rfl
  have e3 : ((gs'.map Given.pair).foldl copyMpiOpt ⟨-1, 268435456, none⟩).buffersize = buffersize :=
    fold_sets copyMpiOpt (fun o => o.buffersize) 'b'.toUInt8 (fun v a => ((scanPtrdiff v).map Prod.fst).getD a) (fun _ _ => rfl)
      (by other_letter copyMpiOpt) (fun _ => rfl) id hb (by
        intro a
        rw [scanPtrdiff_decStr _ hb']
        rfl) _ rfl
  unfold copyMpiArgs
  rw [understood (by decide) h]
  dsimp only
  rw [copyMpiOpt_alias, ← hgs, e1, e2, e3]
  cases nfile with
  | none => rfl
  | some n =>
    simp only [Option.map_some, Option.getD_some, Int.ofNat_eq_natCast]
    rw [if_neg (by omega), if_neg (by omega)]
    rfl

theorem sampleMpiOpt_alias (gs : List Given) (o : SampleOpts) :
    (gs.map Given.pair).foldl sampleMpiOpt o = ((gs.map (Given.alias 'N'.toUInt8 'n'.toUInt8)).map Given.pair).foldl sampleMpiOpt o := by
  induction gs generalizing o with
  | nil => rfl
  | cons g gs ih =>
    simp only [List.map_cons, List.foldl_cons]
    rw [ih]
    congr 1
    cases g with
    | flag c => rfl
    | value c v =>
      unfold Given.alias
      simp only
      split
      · subst_vars; rfl
      · rfl

/-- The switch of bigfile-sample-mpi without `-N`. -/
def noSampleN (o : SampleOpts) (x : Byte × Option CStr) : SampleOpts := if x.1 = 'N'.toUInt8 then o else sampleMpiOpt o x

/-- **C95, bigfile-sample-mpi.** As bigfile-copy-mpi, without a size of the buffer; the ratio is what `-r` says, and 1 without it. -/
theorem C95_sampleMpi (gnu : Bool) (gs gs' : List Given) (words : List CStr) (file block newblock newfile : CStr) (nfile : Option Nat)
    (h : Understood gnu (takesOf b!"n:N:vf:r:") gs [file, block, newblock] words)
    (hgs : gs' = gs.map (Given.alias 'N'.toUInt8 'n'.toUInt8))
    (hf : LastSets gs' 'f'.toUInt8 id file newfile) (hn : LastSets gs' 'n'.toUInt8 countStr none nfile) (hn' : nfile.getD 0 < 2147483648) :
    sampleMpiArgs gnu words = some ⟨file, block, newfile, newblock, nfile, lastValue 'r'.toUInt8 gs⟩ := by
  have halias : ∀ v, Given.value 'N'.toUInt8 v ∉ gs' := by
    intro v hv
    rw [hgs, List.mem_map] at hv
    obtain ⟨g, _, hg⟩ := hv
    cases g with
    | flag c => cases hg
    | value c v' =>
      unfold Given.alias at hg
      simp only at hg
      split at hg
      · injection hg with h1 _; exact absurd h1 (by decide)
      · rename_i hne; injection hg with h1 _; exact hne h1
  have e1 : (((gs'.map Given.pair).foldl sampleMpiOpt ⟨-1, none, none⟩).newfile.getD file) = newfile :=
    fold_sets sampleMpiOpt (fun o => o.newfile.getD file) 'f'.toUInt8 (fun v _ => v) (fun _ _ => rfl)
      (by other_letter sampleMpiOpt) (fun _ => rfl) id hf (fun _ => rfl) _ rfl
  have hsame : ∀ (l : List Given) (o : SampleOpts), (∀ v, Given.value 'N'.toUInt8 v ∉ l) →
      (l.map Given.pair).foldl sampleMpiOpt o = (l.map Given.pair).foldl noSampleN o := by
    intro l
    induction l with
    | nil => intro o _; rfl
    | cons g l ih =>
      intro o hl
      simp only [List.map_cons, List.foldl_cons]
      rw [ih _ (fun v hv => hl v (List.mem_cons_of_mem _ hv))]
      congr 1
      cases g with
      | flag c =>
        by_cases hc : c = 'N'.toUInt8
        · subst hc; rfl
        · exact (if_neg hc).symm
      | value c v =>
        have hc : c ≠ 'N'.toUInt8 := by rintro rfl; exact hl v (by simp)
        exact (if_neg hc).symm
  have e2 : ((gs'.map Given.pair).foldl sampleMpiOpt ⟨-1, none, none⟩).nfile = (nfile.map Int.ofNat).getD (-1) := by
    rw [hsame _ _ halias]
    exact fold_sets noSampleN (fun o => o.nfile) 'n'.toUInt8 (fun v _ => atoi v) (fun _ _ => rfl)
      (by
        intro o c x hc
        unfold noSampleN
        split
        · rfl
        · rename_i hN
          unfold sampleMpiOpt
          split <;> first | rfl | (rename_i he; cases he; exact absurd (by decide) hc) | (rename_i he; cases he; exact absurd rfl hN)) (fun _ => rfl)
      (fun x : Option Nat => (x.map Int.ofNat).getD (-1)) hn (by
        intro _
        cases nfile with
        | none => decide
        | some n => exact atoi_decStr n hn') _ rfl
  have e3 : ((gs.map Given.pair).foldl sampleMpiOpt ⟨-1, none, none⟩).ratio = lastValue 'r'.toUInt8 gs := by
    have h := fold_last sampleMpiOpt (fun o => o.ratio) 'r'.toUInt8 (fun v _ => some v) (fun _ _ => rfl)
      (by other_letter sampleMpiOpt) (fun _ => rfl) gs ⟨-1, none, none⟩
    cases hl : lastValue 'r'.toUInt8 gs with
    | none => exact h.1 hl
    | some v => exact (h.2 v hl).choose_spec
  unfold sampleMpiArgs
  rw [understood (by decide) h]
  dsimp only
  rw [e3, sampleMpiOpt_alias, ← hgs, e1, e2]
  cases nfile with
  | none => rfl
  | some n =>
    simp only [Option.map_some, Option.getD_some, Int.ofNat_eq_natCast]
    rw [if_neg (by omega), if_neg (by omega)]
    rfl

/-- With another number of operands than three bigfile-copy-mpi and bigfile-sample-mpi end with status 1 before they touch any file. -/
theorem C95_mpi_usage (gnu : Bool) (gs : List Given) (words ops : List CStr) (hops : ops.length ≠ 3) :
    (Understood gnu (takesOf b!"n:N:vb:f:") gs ops words → copyMpiArgs gnu words = none) ∧
    (Understood gnu (takesOf b!"n:N:vf:r:") gs ops words → sampleMpiArgs gnu words = none) := by
  constructor
  · intro h
    unfold copyMpiArgs
    rw [understood (by decide) h]
    match ops, hops with
    | [], _ => rfl
    | [_], _ => rfl
    | [_, _], _ => rfl
    | [_, _, _], h => exact absurd rfl h
    | _ :: _ :: _ :: _ :: _, _ => rfl
  · intro h
    unfold sampleMpiArgs
    rw [understood (by decide) h]
    match ops, hops with
    | [], _ => rfl
    | [_], _ => rfl
    | [_, _], _ => rfl
    | [_, _, _], h => exact absurd rfl h
    | _ :: _ :: _ :: _ :: _, _ => rfl

/-- The values of the options of bigfile-iosim are numbers. -/
def Numbers (gs : List Given) : Prop :=
  ∀ c v, Given.value c v ∈ gs → (c = 's'.toUInt8 ∧ ∃ x : Nat, x < 9223372036854775808 ∧ v = decStr x) ∨
    (c ≠ 's'.toUInt8 ∧ ∃ x : Int, -2147483648 ≤ x ∧ x < 2147483648 ∧ v = intStr x)

/-- The switch, if the values are numbers. -/
def simOptT (o : SimVars) : Byte × Option CStr → SimVars
  | (65, _) => { o with aggregated := true }
  | (112, _) => { o with purge := true }
  | (119, some v) => { o with nmemb := ((scanInt v).map Prod.fst).getD o.nmemb }
  | (102, some v) => { o with nfile := ((scanInt v).map Prod.fst).getD o.nfile }
  | (110, some v) => { o with nwriter := ((scanInt v).map Prod.fst).getD o.nwriter }
  | (115, some v) => { o with size := ((scanPtrdiff v).map Prod.fst).getD o.size }
  | _ => o

theorem scanInt_num {x : Int} (h0 : -2147483648 ≤ x) (h1 : x < 2147483648) : scanInt (intStr x) = some (x, []) := by
  have := scanInt_intStr x [] h0 h1 rfl
  rwa [List.append_nil] at this

theorem simFlags (c : Byte) (h : takesOf b!"hf:n:s:w:m:Ap" c = some false) : c = 'h'.toUInt8 ∨ c = 65 ∨ c = 112 := by
  have : ∀ k < 256, takesOf b!"hf:n:s:w:m:Ap" (UInt8.ofNat k) = some false →
      UInt8.ofNat k = 'h'.toUInt8 ∨ UInt8.ofNat k = 65 ∨ UInt8.ofNat k = 112 := by decide +kernel
  have := this c.toNat c.toNat_lt
  rw [UInt8.ofNat_toNat] at this
  exact this h

theorem simValues (c : Byte) (h : takesOf b!"hf:n:s:w:m:Ap" c = some true) :
    c = 'm'.toUInt8 ∨ c = 102 ∨ c = 110 ∨ c = 115 ∨ c = 119 := by
  have : ∀ k < 256, takesOf b!"hf:n:s:w:m:Ap" (UInt8.ofNat k) = some true →
      UInt8.ofNat k = 'm'.toUInt8 ∨ UInt8.ofNat k = 102 ∨ UInt8.ofNat k = 110 ∨ UInt8.ofNat k = 115 ∨ UInt8.ofNat k = 119 := by decide +kernel
  have := this c.toNat c.toNat_lt
  rw [UInt8.ofNat_toNat] at this
  exact this h

theorem simOpt_total : ∀ (gs : List Given) (o : SimVars), Numbers gs →
    (∀ g ∈ gs, (∀ c, g = .flag c → takesOf b!"hf:n:s:w:m:Ap" c = some false) ∧ ∀ c v, g = .value c v → takesOf b!"hf:n:s:w:m:Ap" c = some true) →
    ¬ Has gs 'h'.toUInt8 → lastValue 'm'.toUInt8 gs = none →
    (gs.map Given.pair).foldl simOpt (some o) = some ((gs.map Given.pair).foldl simOptT o) := by
  intro gs
  induction gs with
  | nil => intro o _ _ _ _; rfl
  | cons g gs ih =>
    intro o hnum hok hh hm
    have step : simOpt (some o) g.pair = some (simOptT o g.pair) := by
      have hg := hok g (by simp)
      cases g with
      | flag c =>
        have hc := hg.1 c rfl
        have h1 : c ≠ 'h'.toUInt8 := by rintro rfl; exact hh ⟨_, by simp, rfl⟩
        have h2 : c = 65 ∨ c = 112 := (simFlags c hc).resolve_left h1
        rcases h2 with rfl | rfl <;> rfl
      | value c v =>
        have hc := hg.2 c v rfl
        have h1 : c ≠ 'm'.toUInt8 := by
          rintro rfl
          rw [lastValue, if_pos rfl] at hm
          cases hl : lastValue 'm'.toUInt8 gs <;> rw [hl] at hm <;> cases hm
        have h2 : c = 102 ∨ c = 110 ∨ c = 115 ∨ c = 119 := (simValues c hc).resolve_left h1
        rcases hnum c v (by simp) with ⟨rfl, x, hx, rfl⟩ | ⟨hne, x, hx0, hx1, rfl⟩
        · show simOpt (some o) (115, some (decStr x)) = some (simOptT o (115, some (decStr x)))
          simp only [simOpt, simOptT, Option.bind_some, scanPtrdiff_decStr x hx, Option.map_some, Option.getD_some]
        · rcases h2 with rfl | rfl | rfl | rfl
          · simp only [Given.pair, simOpt, simOptT, Option.bind_some, scanInt_num hx0 hx1, Option.map_some, Option.getD_some]
          · simp only [Given.pair, simOpt, simOptT, Option.bind_some, scanInt_num hx0 hx1, Option.map_some, Option.getD_some]
          · exact absurd rfl hne
          · simp only [Given.pair, simOpt, simOptT, Option.bind_some, scanInt_num hx0 hx1, Option.map_some, Option.getD_some]
    simp only [List.map_cons, List.foldl_cons]
    rw [step]
    refine ih _ (fun c v h => hnum c v (List.mem_cons_of_mem _ h)) (fun g h => hok g (List.mem_cons_of_mem _ h))
      (fun ⟨g', hg', e⟩ => hh ⟨g', List.mem_cons_of_mem _ hg', e⟩) ?_
    cases g with
    | flag c => exact hm
    | value c v =>
      rw [lastValue] at hm
      cases hl : lastValue 'm'.toUInt8 gs with
      | none => rfl
      | some v => rw [hl] at hm; cases hm

/-- The name of a command of bigfile-iosim. -/
def modeName : SimMode → CStr
  | .create => b!"create"
  | .update => b!"update"
  | .read => b!"read"
  | .grow => b!"grow"

/-- The defaults of bigfile-iosim. -/
abbrev simDefaults : SimVars := ⟨1, 0, 0, 1024, false, false⟩

theorem simVars_eq {gs : List Given} {o : SimOpts} {purge : Bool}
    (hval : ∀ c v, Given.value c v ∈ gs → takesOf b!"hf:n:s:w:m:Ap" c = some true)
    (hw : LastSets gs 'w'.toUInt8 intStr 1 o.nmemb) (hw' : -2147483648 ≤ o.nmemb ∧ o.nmemb < 2147483648)
    (hn : LastSets gs 'n'.toUInt8 intStr 0 o.nwriter) (hn' : -2147483648 ≤ o.nwriter ∧ o.nwriter < 2147483648)
    (hf : LastSets gs 'f'.toUInt8 decStr 0 o.nfile) (hf' : o.nfile < 2147483648)
    (hs : LastSets gs 's'.toUInt8 decStr 1024 o.size) (hs' : o.size < 9223372036854775808)
    (hA : o.aggregated = true ↔ Has gs 'A'.toUInt8) (hp : purge = true ↔ Has gs 'p'.toUInt8) :
    (gs.map Given.pair).foldl simOptT simDefaults = ⟨o.nmemb, o.nwriter, o.nfile, o.size, o.aggregated, purge⟩ := by
  have e1 : ((gs.map Given.pair).foldl simOptT simDefaults).nmemb = o.nmemb :=
    fold_sets simOptT (fun o => o.nmemb) 'w'.toUInt8 (fun v a => ((scanInt v).map Prod.fst).getD a) (fun _ _ => rfl)
      (by other_letter simOptT) (fun _ => rfl) id hw (by intro a; rw [scanInt_num hw'.1 hw'.2]; rfl) _ rfl
  have e2 : ((gs.map Given.pair).foldl simOptT simDefaults).nwriter = o.nwriter :=
    fold_sets simOptT (fun o => o.nwriter) 'n'.toUInt8 (fun v a => ((scanInt v).map Prod.fst).getD a) (fun _ _ => rfl)
      (by other_letter simOptT) (fun _ => rfl) id hn (by intro a; rw [scanInt_num hn'.1 hn'.2]; rfl) _ rfl
  have e3 : ((gs.map Given.pair).foldl simOptT simDefaults).nfile = (o.nfile : Int) :=
    fold_sets simOptT (fun o => o.nfile) 'f'.toUInt8 (fun v a => ((scanInt v).map Prod.fst).getD a) (fun _ _ => rfl)
      (by other_letter simOptT) (fun _ => rfl) (fun x : Nat => (x : Int)) hf (by
        intro a
        have hi : decStr o.nfile = intStr o.nfile := by unfold intStr; rw [if_neg (by omega)]; rfl
        rw [hi, scanInt_num (by omega) (by omega)]
        rfl) _ rfl
  have e4 : ((gs.map Given.pair).foldl simOptT simDefaults).size = o.size :=
    fold_sets simOptT (fun o => o.size) 's'.toUInt8 (fun v a => ((scanPtrdiff v).map Prod.fst).getD a) (fun _ _ => rfl)
      (by other_letter simOptT) (fun _ => rfl) id hs (by intro a; rw [scanPtrdiff_decStr _ hs']; rfl) _ rfl
  have e5 : ((gs.map Given.pair).foldl simOptT simDefaults).aggregated = o.aggregated := by
    have := fold_flag simOptT (fun o => o.aggregated) 'A'.toUInt8 (fun _ _ => rfl) (by other_letter simOptT) gs
      (fun v hv => absurd (hval _ _ hv) (by decide)) simDefaults
    rw [Bool.eq_iff_iff, this, hA]
    simp
  have e6 : ((gs.map Given.pair).foldl simOptT simDefaults).purge = purge := by
    have := fold_flag simOptT (fun o => o.purge) 'p'.toUInt8 (fun _ _ => rfl) (by other_letter simOptT) gs
      (fun v hv => absurd (hval _ _ hv) (by decide)) simDefaults
    rw [Bool.eq_iff_iff, this, hp]
    simp
  generalize (gs.map Given.pair).foldl simOptT simDefaults = x at *
  cases x
  simp only at e1 e2 e3 e4 e5 e6
  subst e1 e2 e3 e4 e5 e6
  rfl

/-- **C95, bigfile-iosim.** The options mean what the usage says; with `-p` the block is removed when the transfer is over. -/
theorem C95_iosim (env : Env) (n : Nat) (order : List Key → List Key) (gnu : Bool) (gs : List Given) (words more : List CStr) (mode : SimMode)
    (file : CStr) (o : SimOpts) (purge : Bool) (buf : Nat → Int) (mem : Nat → Mem)
    (h : Understood gnu (takesOf b!"hf:n:s:w:m:Ap") gs (modeName mode :: file :: more) words) (hnum : Numbers gs)
    (hh : ¬ Has gs 'h'.toUInt8) (hm : lastValue 'm'.toUInt8 gs = none)
    (hw : LastSets gs 'w'.toUInt8 intStr 1 o.nmemb) (hw' : -2147483648 ≤ o.nmemb ∧ o.nmemb < 2147483648)
    (hn : LastSets gs 'n'.toUInt8 intStr 0 o.nwriter) (hn' : -2147483648 ≤ o.nwriter ∧ o.nwriter < 2147483648)
    (hf : LastSets gs 'f'.toUInt8 decStr 0 o.nfile) (hf' : o.nfile < 2147483648)
    (hs : LastSets gs 's'.toUInt8 decStr 1024 o.size) (hs' : o.size < 9223372036854775808)
    (hA : o.aggregated = true ↔ Has gs 'A'.toUInt8) (hp : purge = true ↔ Has gs 'p'.toUInt8) (hfile : file.length < 1483) :
    bigfileIosim env n order gnu words buf mem = (do
      let e ← ioSim env n mode o file buf mem
      if e = .aborted then pure e
      else if purge then do
        let _ ← Phases.alone (rmTree order (slashed file b!"TestBlock"))
        pure .done
      else pure .done) := by
  have hok := understood_ok h
  have he := simOpt_total gs simDefaults hnum hok hh hm
  rw [simVars_eq (fun c v hv => (hok _ hv).2 _ _ rfl) hw hw' hn hn' hf hf' hs hs' hA hp] at he
  have hmode : simModeOf (modeName mode) = some mode := by cases mode <;> decide
  unfold bigfileIosim
  rw [understood (by decide) h]
  dsimp only
  rw [he]
  dsimp only
  rw [hmode]
  dsimp only
  rw [if_neg (by omega), Int.toNat_natCast]
  congr 1
  funext e
  split
  · rfl
  · cases purge
    · rfl
    · rw [if_neg (by decide), if_neg (by omega), if_pos rfl]

theorem scanNum_letter (x : Byte) (s : CStr) (w : Nat) (hx : 97 ≤ x.toNat) : scanNum 10 w (x :: s) = none := by
  have all : ∀ k < 256, 97 ≤ k → isSpace (UInt8.ofNat k) = false ∧ UInt8.ofNat k ≠ 45 ∧ UInt8.ofNat k ≠ 43 ∧
      startsDigit 10 [UInt8.ofNat k] = false := by decide +kernel
  obtain ⟨h1, h2, h3, h4⟩ := all x.toNat x.toNat_lt hx
  rw [UInt8.ofNat_toNat] at h1 h2 h3 h4
  have e1 : scanWs (x :: s) = x :: s := by unfold scanWs; rw [List.dropWhile_cons_of_neg (by rw [h1]; decide)]
  have e2 : takeSign (x :: s) = (false, 0, x :: s) := by
    unfold takeSign
    split
    · rename_i he; injection he with he _; exact absurd he h2
    · rename_i he; injection he with he _; exact absurd he h3
    · rfl
  unfold scanNum
  rw [e1]
  dsimp only
  rw [e2]
  simp only [show ((10 : Nat) == 16) = false from rfl, Bool.false_and, Bool.false_eq_true, if_false]
  rw [if_pos]
  have h5 : startsDigit 10 (x :: s) = false := h4
  rw [h5]
  simp

/-- bigfile-iosim ends with status 0 and does nothing if it does not understand its command line: `-h` or `-m`, a value that begins with a
letter, an unknown command or none. -/
theorem C95_iosim_usage (env : Env) (n : Nat) (order : List Key → List Key) (gnu : Bool) (gs : List Given) (words ops : List CStr)
    (buf : Nat → Int) (mem : Nat → Mem) (h : Understood gnu (takesOf b!"hf:n:s:w:m:Ap") gs ops words)
    (hbad : Has gs 'h'.toUInt8 ∨ (∃ v, Given.value 'm'.toUInt8 v ∈ gs) ∨
      (∃ c x v, Given.value c (x :: v) ∈ gs ∧ 97 ≤ x.toNat) ∨ ∀ mode, ops.head? ≠ some (modeName mode)) :
    bigfileIosim env n order gnu words buf mem = pure .done := by
  have hnone : ∀ l : List (Byte × Option CStr), l.foldl simOpt none = none := by
    intro l
    induction l with
    | nil => rfl
    | cons x l ih => exact ih
  have hstuck : ∀ (gs : List Given) (o : Option SimVars), (∃ g ∈ gs, ∀ o, simOpt o g.pair = none) →
      (gs.map Given.pair).foldl simOpt o = none := by
    intro gs
    induction gs with
    | nil => rintro o ⟨g, hg, _⟩; cases hg
    | cons g gs ih =>
      rintro o ⟨g', hg', hs⟩
      rw [List.map_cons, List.foldl_cons]
      rcases List.mem_cons.mp hg' with rfl | hg'
      · rw [hs]; exact hnone _
      · exact ih _ ⟨g', hg', hs⟩
  unfold bigfileIosim
  rw [understood (by decide) h]
  dsimp only
  have hbad' : (∃ g ∈ gs, ∀ o, simOpt o g.pair = none) ∨ ∀ mode, ops.head? ≠ some (modeName mode) := by
    rcases hbad with ⟨g, hg, rfl⟩ | ⟨v, hv⟩ | ⟨c, x, v, hv, hx⟩ | hm
    · exact Or.inl ⟨_, hg, fun o => by cases o <;> rfl⟩
    · exact Or.inl ⟨_, hv, fun o => by cases o <;> rfl⟩
    · refine Or.inl ⟨_, hv, fun o => ?_⟩
      have h1 : scanInt (x :: v) = none := by unfold scanInt; rw [scanNum_letter x v _ hx]
      have h2 : scanPtrdiff (x :: v) = none := by unfold scanPtrdiff; rw [scanNum_letter x v _ hx]
      cases o with
      | none => rfl
      | some o =>
        rcases simValues c ((understood_ok h _ hv).2 _ _ rfl) with rfl | rfl | rfl | rfl | rfl
        · rfl
        · simp only [Given.pair, simOpt, Option.bind_some, h1, Option.map_none]
        · simp only [Given.pair, simOpt, Option.bind_some, h1, Option.map_none]
        · simp only [Given.pair, simOpt, Option.bind_some, h2, Option.map_none]
        · simp only [Given.pair, simOpt, Option.bind_some, h1, Option.map_none]
    · exact Or.inr hm
  rcases hbad' with hg | hm
  · rw [hstuck gs _ hg]
  · cases hfold : (gs.map Given.pair).foldl simOpt (some ⟨1, 0, 0, 1024, false, false⟩) with
    | none => rfl
    | some o =>
      cases ops with
      | nil => rfl
      | cons cmd rest =>
        have : simModeOf cmd = none := by
          unfold simModeOf
          rw [if_neg (fun he => hm .create (by rw [he]; rfl)), if_neg (fun he => hm .read (by rw [he]; rfl)),
            if_neg (fun he => hm .update (by rw [he]; rfl)), if_neg (fun he => hm .grow (by rw [he]; rfl))]
        simp only [this]

/-- Without the name of a file the behaviour of bigfile-iosim is undefined. -/
theorem C95_iosim_no_file (env : Env) (n : Nat) (order : List Key → List Key) (gnu : Bool) (words : List CStr) (mode : SimMode)
    (buf : Nat → Int) (mem : Nat → Mem) (h : Understood gnu (takesOf b!"hf:n:s:w:m:Ap") [] [modeName mode] words) :
    bigfileIosim env n order gnu words buf mem = .ub := by
  unfold bigfileIosim
  rw [understood (by decide) h]
  cases mode <;> rfl

/-! ## Examples -/

/-- `bigfile-copy-mpi -N 2 -n4 -b 100 d z y`: the last of `-N` and `-n` counts. -/
example : copyMpiArgs false [b!"-N", b!"2", b!"-n4", b!"-b", b!"100", b!"d", b!"z", b!"y"] =
    some ⟨b!"d", b!"z", b!"d", b!"y", some 4, 100⟩ :=
  C95_copyMpi false [.value 78 b!"2", .value 110 b!"4", .value 98 b!"100"] _ _ _ _ _ _ (some 4) 100
    (Or.inl (.option (ws := [b!"-N", b!"2"]) (.apart (by decide)) (.option (ws := [b!"-n4"]) (.joined (by decide) (by decide))
      (.option (ws := [b!"-b", b!"100"]) (.apart (by decide)) (.operands (exPlain _ (by decide))))))) rfl
    (Or.inl ⟨by decide, rfl⟩) (Or.inr (by decide)) (by decide) (Or.inr (by decide)) (by decide)

/-- `bigfile-sample-mpi -r .5 -N 2 -r 0.1 d z y`. -/
example : sampleMpiArgs false [b!"-r", b!".5", b!"-N", b!"2", b!"-r", b!"0.1", b!"d", b!"z", b!"y"] =
    some ⟨b!"d", b!"z", b!"d", b!"y", some 2, some b!"0.1"⟩ :=
  C95_sampleMpi false [.value 114 b!".5", .value 78 b!"2", .value 114 b!"0.1"] _ _ _ _ _ _ (some 2)
    (Or.inl (.option (ws := [b!"-r", b!".5"]) (.apart (by decide)) (.option (ws := [b!"-N", b!"2"]) (.apart (by decide))
      (.option (ws := [b!"-r", b!"0.1"]) (.apart (by decide)) (.operands (exPlain _ (by decide))))))) rfl
    (Or.inl ⟨by decide, rfl⟩) (Or.inr (by decide)) (by decide)

example : sampleMpiArgs false [b!"-r", b!".5", b!"d", b!"z"] = none :=
  (C95_mpi_usage false [.value 114 b!".5"] _ [b!"d", b!"z"] (by decide)).2
    (Or.inl (.option (ws := [b!"-r", b!".5"]) (.apart (by decide)) (.operands (exPlain _ (by decide)))))

/-- `bigfile-iosim -A -w 3 create d -p` with GNU's `getopt`. -/
example (order : List Key → List Key) (buf : Nat → Int) (mem : Nat → Mem) :
    bigfileIosim exEnv 2 order true [b!"-A", b!"-w", b!"3", b!"create", b!"d", b!"-p"] buf mem = (do
      let e ← ioSim exEnv 2 .create ⟨3, 0, 0, 1024, true⟩ b!"d" buf mem
      if e = .aborted then pure e
      else if true then do
        let _ ← Phases.alone (rmTree order (slashed b!"d" b!"TestBlock"))
        pure .done
      else pure .done) :=
  C95_iosim exEnv 2 order true [.flag 65, .value 119 b!"3", .flag 112] _ [] .create b!"d" ⟨3, 0, 0, 1024, true⟩ true buf mem
    (Or.inr ⟨rfl, .option (ws := [b!"-A"]) (.flag (by decide)) (.option (ws := [b!"-w", b!"3"]) (.apart (by decide))
      (.operand (exPlain [modeName .create] (by decide) _ (by simp)) (.operand (exPlain [b!"d"] (by decide) _ (by simp))
        (.option (ws := [b!"-p"]) (.flag (by decide)) .nil))))⟩)
    (by
      intro c v h
      simp only [List.mem_cons, List.not_mem_nil, or_false, Given.value.injEq, reduceCtorEq, false_or, or_false] at h
      obtain ⟨rfl, rfl⟩ := h
      exact Or.inr ⟨by decide, 3, by decide, by decide, by decide⟩)
    (by rintro ⟨g, hg, rfl⟩; simp only [List.mem_cons, List.not_mem_nil, or_false, Given.flag.injEq, reduceCtorEq, false_or] at hg; exact absurd hg (by decide)) (by decide) (Or.inr (by decide)) (by decide) (Or.inl ⟨by decide, rfl⟩) (by decide)
    (Or.inl ⟨by decide, rfl⟩) (by decide) (Or.inl ⟨by decide, rfl⟩) (by decide) ⟨fun _ => ⟨.flag 65, by simp, rfl⟩, fun _ => rfl⟩
    ⟨fun _ => ⟨.flag 112, by simp, rfl⟩, fun _ => rfl⟩ (by decide)

/-- `bigfile-repartition -v d 3 z` and without `-v`. -/
example (gnu : Bool) (buf : Int) (mem : Mem) (w : World) :
    bigfileCopy exEnv gnu [b!"-v", b!"-n", b!"3", b!"d", b!"z-REPBAK", b!"z"] buf mem =
      copyMain exEnv b!"d" b!"z-REPBAK" b!"d" b!"z" (some 3) 268435456 buf mem ∧
    bigfileCopy exEnv gnu [b!"0", b!"-n", b!"3", b!"d", b!"z-REPBAK", b!"z"] buf mem w = .ok .failed w :=
  C95_repartition exEnv gnu b!"d" b!"z" 3 buf mem w (by decide) (Or.inl (by decide)) (Or.inl (by decide)) (Or.inl (by decide))

end Verif
