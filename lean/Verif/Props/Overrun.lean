import Verif.Props.Mpi
import Verif.Proof.Overrun
/-!
# C91: collective transfers that do not fit the block
-/

set_option autoImplicit false

namespace Verif

open Spec

/-- **C91**, for `big_block_mpi_write`: the rows of all processes together are more than those left in the
block. File operations of any process may fail or be cut short in any pattern. In every interleaving all
processes return, with the same code; it is not 0, and every process has the message of one of them. At any
time at most the rows from row `p` to the end of the block have changed, and nothing else. -/
theorem C91_write (env : Env) (bb : Block) (w nm n : Nat) (R : Nat → Rank) (p : Nat) (rows sw : Nat → Nat)
    (stored : Nat → Nat → List Byte) (fs : FS) (concurrency : Int) (threshold : Nat)
    (h : OverrunWrite env bb w nm n R p rows sw stored) (hc : concurrency < 2147483648)
    (F : Nat → Nat → Fault) (hF : NoCrash F) :
    ∃ B, ∀ es s, Run F n (startWrite env n concurrency threshold R fs) es s → es.length ≤ B ∧
      RowsTouched env.m bb fs s.nodes p (bb.size - p) ∧ (s.Stuck F n → AllRefused n R s) :=
  over_runs h concurrency threshold hc hF fs

/-- **C91**, for `big_block_mpi_read`: likewise, and no file changes. -/
theorem C91_read (env : Env) (bb : Block) (w nm n : Nat) (R : Nat → Rank) (p : Nat) (rows sw : Nat → Nat)
    (fs : FS) (concurrency : Int) (threshold : Nat)
    (h : OverrunRead env bb w nm n R p rows sw) (hc : concurrency < 2147483648)
    (F : Nat → Nat → Fault) (hF : NoCrash F) :
    ∃ B, ∀ es s, Run F n (startRead env n concurrency threshold R fs) es s → es.length ≤ B ∧
      s.nodes = fs.node ∧ (s.Stuck F n → AllRefused n R s) :=
  overread_runs h concurrency threshold hc hF fs

/-! ## An example: three processes with three rows each from row 1 of a block of five rows -/

/-- Memory in which element `e` of `exSrc` is the number `e + 20`. -/
def exMem20 : Mem := fun x => if x = 100 then 20 else if x = 116 then 21 else if x = 132 then 22 else 0

def exOver (r : Nat) : Rank :=
  ⟨exBlock, exPtr, exSrc, if r = 0 then exMem else exMem20, none, if r = 1 then b!"no room" else b!"no"⟩

def exOverStored (r e : Nat) : List Byte := if r = 0 then exStored e else [UInt8.ofNat (e + 20), 0, 0, 0]

theorem exOverrun : OverrunWrite exEnv exBlock 4 1 3 exOver 1 (fun _ => 3) (fun _ => 8) exOverStored := by
  refine ⟨⟨by decide, fun _ _ => exBlockOk, fun _ _ => ⟨rfl, rfl, rfl, rfl, rfl, rfl, rfl⟩, fun _ _ => exPtr_points,
    fun _ _ => rfl, fun _ _ => rfl, fun _ _ => List.cons_ne_nil _ _, fun _ _ _ => exSrc_ok, by decide, by decide, by decide,
    by decide, by decide⟩, fun _ _ hf => absurd (show foreign exEnv.m exSrc.dtype = true from hf) (by decide), ?_⟩
  intro r hr e he
  have hcv : ∀ e < 3, convElem exEnv.m exEnv.fo (dtypeNormalize exEnv.m exBlock.dtype) exSrc.dtype
        (peek exMem (elemAddr exSrc e) 8) = some (exStored e) ∧
      convElem exEnv.m exEnv.fo (dtypeNormalize exEnv.m exBlock.dtype) exSrc.dtype
        (peek exMem20 (elemAddr exSrc e) 8) = some [UInt8.ofNat (e + 20), 0, 0, 0] := by decide +kernel
  by_cases h0 : r = 0
  · subst h0; exact (hcv e he).1
  · simp only [exOver, exOverStored, if_neg h0]; exact (hcv e he).2

theorem exOverrunRead : OverrunRead exEnv exBlock 4 1 3 exOver 1 (fun _ => 3) (fun _ => 8) :=
  ⟨exOverrun.toOverrun, fun _ _ _ => (by decide : convertible exEnv.m exEnv.fo exSrc.dtype (dtypeNormalize exEnv.m exBlock.dtype) = true), fun r hr h0 bs hl => by
    obtain ⟨o, ho, _⟩ := convElem_int exEnv.m exEnv.fo .i8 .i4 .little .little bs hl
    exact ⟨o, ho⟩⟩

-- with every first file operation failing
example := C91_write exEnv exBlock 4 1 3 exOver 1 (fun _ => 3) (fun _ => 8) exOverStored exFS 3 1 exOverrun (by decide)
  (fun _ t => if t = 0 then .fail else .none) (by intro r t m; dsimp only; split <;> simp)

example := C91_read exEnv exBlock 4 1 3 exOver 1 (fun _ => 3) (fun _ => 8) exFS 3 1 exOverrunRead (by decide)
  faultless (by intro r t m; simp [faultless, noFaults])

/-! ## The refused write has effects -/

instance {α : Type} (c : Call) (p : Prog α) : Decidable (p.WaitsAt c) :=
  match p with
  | .coll c' _ _ => inferInstanceAs (Decidable (c' = c))
  | .ret _ | .ub | .hang | .file _ _ => inferInstanceAs (Decidable False)

/-- Process `r` is given a turn: it takes a step if it can. -/
def turn {α : Type} (F : Nat → Nat → Fault) (n : Nat) (s : Conf α) (r : Nat) : Conf α :=
  match (s.thr r).prog with
  | .file op k => match op.exec (F r (s.thr r).clock) s.nodes with
    | some (a, nd) => if r < n then s.put r ⟨k a, (s.thr r).clock + 1⟩ nd else s
    | none => s
  | .coll c _ _ => if c.members ≠ [] ∧ ∀ q ∈ c.members, q < n ∧ (s.thr q).prog.WaitsAt c then s.meet c else s
  | _ => s

theorem turn_run {α : Type} (F : Nat → Nat → Fault) (n : Nat) (s : Conf α) (r : Nat) : ∃ es, Run F n s es (turn F n s r) := by
  unfold turn
  split
  · rename_i op k hp
    split
    · rename_i a nd he
      split
      · exact ⟨_, .cons (.file s r op k (s.thr r).clock a nd ‹_› (by rw [← hp]) he) (.nil _)⟩
      · exact ⟨_, .nil _⟩
    · exact ⟨_, .nil _⟩
  · split
    · rename_i h
      exact ⟨_, .cons (.coll s _ h.1 h.2) (.nil _)⟩
    · exact ⟨_, .nil _⟩
  · exact ⟨_, .nil _⟩

/-- Turns in the given order. -/
def turns {α : Type} (F : Nat → Nat → Fault) (n : Nat) (l : List Nat) (s : Conf α) : Conf α := l.foldl (turn F n) s

theorem turns_run {α : Type} (F : Nat → Nat → Fault) (n : Nat) (l : List Nat) : ∀ s : Conf α, ∃ es, Run F n s es (turns F n l s) := by
  induction l with
  | nil => exact fun s => ⟨_, .nil s⟩
  | cons r l ih =>
    intro s
    obtain ⟨e1, h1⟩ := turn_run F n s r
    obtain ⟨e2, h2⟩ := ih (turn F n s r)
    exact ⟨_, h1.trans h2⟩

/-- Process 0 writes its rows, process 1 is refused, process 2 writes; then the errors are exchanged. -/
def exOverEnd : Conf (Int × Rank) :=
  turns faultless 3 (List.replicate 14 0 ++ List.replicate 12 1 ++ List.replicate 20 2) (startWrite exEnv 3 3 1 exOver exFS)

theorem exOverEnd_rows : (List.range 5).map (fun r => row exEnv.m ⟨exOverEnd.nodes, exFS.dom⟩ exBlock r) =
    [[1, 1, 1, 1], [20, 0, 0, 0], [21, 0, 0, 0], [22, 0, 0, 0], [5, 5, 5, 5]] := by decide +kernel

theorem exOverEnd_finished : exOverEnd.Finished 3 := by
  have h : ((List.range 3).all fun r => match (exOverEnd.thr r).prog with | .ret _ => true | _ => false) = true := by decide +kernel
  intro r hr
  have := List.all_eq_true.mp h r (List.mem_range.mpr hr)
  split at this
  · exact ⟨_, ‹_›⟩
  · exact absurd this (by decide)

/-- A write of one process that runs past the end of the block is refused before anything is written (C08). A
collective write that runs past the end is also refused, but not without effect, and what it leaves in the block
need not belong there: three processes have three rows each for rows 1 to 9 of a block of five rows, no operation
fails, and in this run all processes return an error but row 1, 2 and 3 have become the rows of process 2, meant
for rows 7, 8 and 9. -/
theorem C91_no_effect_false : ∃ es s, Run faultless 3 (startWrite exEnv 3 3 1 exOver exFS) es s ∧ AllRefused 3 exOver s ∧
    ∀ i, i < 3 → row exEnv.m ⟨s.nodes, exFS.dom⟩ exBlock (1 + i) = rowOfElems (exOverStored 2) 1 i ∧
      row exEnv.m ⟨s.nodes, exFS.dom⟩ exBlock (1 + i) ≠ row exEnv.m exFS exBlock (1 + i) := by
  obtain ⟨es, hr⟩ := turns_run faultless 3 (List.replicate 14 0 ++ List.replicate 12 1 ++ List.replicate 20 2)
    (startWrite exEnv 3 3 1 exOver exFS)
  obtain ⟨B, hB⟩ := C91_write exEnv exBlock 4 1 3 exOver 1 (fun _ => 3) (fun _ => 8) exOverStored exFS 3 1 exOverrun (by decide)
    faultless (by intro r t m; simp [faultless, noFaults])
  refine ⟨es, exOverEnd, hr, (hB es _ hr).2.2 exOverEnd_finished.stuck, ?_⟩
  decide +kernel

end Verif
