import Verif.Proof.Scripts
/-!
# A process is killed only where the failures say so
-/

set_option autoImplicit false

namespace Verif

open Spec

/-- The call leaves the failures to come as they are, and the process is killed only at an operation where they say so. -/
def Steady {α : Type} (m : M α) : Prop :=
  ∀ w, wlp m w (fun _ w' => w'.faults = w.faults ∧ w.clock ≤ w'.clock) (fun _ => ∃ i n, w.clock ≤ i ∧ w.faults i = .crash n)

theorem Steady.bind {α β : Type} {m : M α} {f : α → M β} (h : Steady m) (h' : ∀ a, Steady (f a)) : Steady (m >>= f) := by
  intro w
  rw [wlp_bind]
  refine wlp_mono (h w) (fun a w' hw => ?_) (fun _ h => h)
  refine wlp_mono (h' a w') (fun _ w2 h2 => ⟨h2.1.trans hw.1, Nat.le_trans hw.2 h2.2⟩) (fun _ h2 => ?_)
  obtain ⟨i, n, h3, h4⟩ := h2
  exact ⟨i, n, Nat.le_trans hw.2 h3, by rw [← hw.1]; exact h4⟩

theorem Steady.pure {α : Type} (a : α) : Steady (pure a : M α) := fun _ => ⟨rfl, Nat.le_refl _⟩

theorem Steady.lift {α : Type} (x : Option α) : Steady (M.lift x) := fun w => wlp_lift x w _ _ fun _ => ⟨rfl, Nat.le_refl _⟩

theorem Steady.ite {α : Type} {c : Prop} [Decidable c] {a b : M α} (ha : Steady a) (hb : Steady b) :
    Steady (if c then a else b) := by
  split
  · exact ha
  · exact hb

theorem Steady.hang {α : Type} : Steady (M.hang : M α) := fun _ => trivial

theorem Steady.ub {α : Type} : Steady (M.ub : M α) := fun _ => trivial

theorem getFS_steady : Steady getFS := fun _ => ⟨rfl, Nat.le_refl _⟩

theorem setFS_steady (fs : FS) : Steady (setFS fs) := fun _ => ⟨rfl, Nat.le_refl _⟩

/-- An operation: what it does when it is not killed is steady. -/
theorem Steady.tick {α : Type} {f : Fault → M α} (h : ∀ x, (∀ n, x ≠ .crash n) → Steady (f x))
    (h' : ∀ n w, wlp (f (.crash n)) w (fun _ _ => False) (fun _ => True)) : Steady (tick >>= f) := by
  intro w
  rw [wlp_bind]
  show wlp (f (w.faults w.clock)) ({ w with clock := w.clock + 1 } : World) _ _
  by_cases hc : ∃ n, w.faults w.clock = .crash n
  · obtain ⟨n, hn⟩ := hc
    rw [hn]
    exact wlp_mono (h' n _) (fun _ _ h => h.elim) (fun _ _ => ⟨w.clock, n, Nat.le_refl _, hn⟩)
  · refine wlp_mono (h _ (fun n hn => hc ⟨n, hn⟩) _) ?_ ?_
    · rintro a w' ⟨h1, h2⟩
      exact ⟨h1, by simp only at h2; omega⟩
    · rintro w' ⟨i, n, h1, h2⟩
      exact ⟨i, n, by simp only at h1; omega, h2⟩

theorem fopen_steady (path : CStr) (mode : Mode) : Steady (fopen path mode) := by
  unfold fopen
  refine Steady.tick (fun x hx => ?_) (fun n w => trivial)
  have hrest : Steady (do
      let fs ← getFS
      let k := resolve path
      match mode with
      | .r => pure (fs.node k).isSome
      | .rplus => match fs.node k with
        | some (.file _) => pure true
        | _ => pure false
      | .w => match fs.node k with
        | some .dir => pure false
        | _ =>
          if fs.node k.dropLast = some .dir then do
            setFS (fs.set k (.file []))
            pure true
          else pure false) := by
    refine Steady.bind getFS_steady fun fs => ?_
    dsimp only
    cases mode with
    | r => exact Steady.pure _
    | rplus => dsimp only; split <;> exact Steady.pure _
    | w =>
      dsimp only
      split
      · exact Steady.pure _
      · exact Steady.ite (Steady.bind (setFS_steady _) fun _ => Steady.pure _) (Steady.pure _)
  cases x with
  | crash n => exact absurd rfl (hx n)
  | fail => exact Steady.pure _
  | none => exact hrest
  | short n => exact hrest
  | silent n => exact hrest

theorem fwriteAt_steady (path : CStr) (off : Nat) (bs : List Byte) : Steady (fwriteAt path off bs) := by
  unfold fwriteAt
  refine Steady.tick (fun x hx => Steady.bind getFS_steady fun fs => ?_) (fun n w => trivial)
  cases x with
  | crash n => exact absurd rfl (hx n)
  | fail => exact Steady.pure _
  | none => exact Steady.bind (setFS_steady _) fun _ => Steady.pure _
  | short n => exact Steady.bind (setFS_steady _) fun _ => Steady.pure _
  | silent n => exact Steady.bind (setFS_steady _) fun _ => Steady.pure _

theorem freadAt_steady (path : CStr) (off len : Nat) : Steady (freadAt path off len) := by
  unfold freadAt
  refine Steady.tick (fun x hx => Steady.bind getFS_steady fun fs => ?_) (fun n w => trivial)
  cases x with
  | crash n => exact absurd rfl (hx n)
  | fail => exact Steady.pure _
  | none => exact Steady.pure _
  | short n => exact Steady.pure _
  | silent n => exact Steady.pure _

theorem writeText_steady (path : CStr) (bs : List Byte) : Steady (writeText path bs) := by
  unfold writeText
  refine Steady.tick (fun x hx => Steady.bind getFS_steady fun fs => ?_) (fun n w => trivial)
  cases x with
  | crash n => exact absurd rfl (hx n)
  | fail => exact Steady.pure _
  | none => exact Steady.bind (setFS_steady _) fun _ => Steady.pure _
  | short n => exact Steady.bind (setFS_steady _) fun _ => Steady.pure _
  | silent n => exact Steady.bind (setFS_steady _) fun _ => Steady.pure _

theorem mkdirOk_steady (path : CStr) : Steady (mkdirOk path) := by
  unfold mkdirOk
  refine Steady.tick (fun x hx => ?_) (fun n w => trivial)
  cases x with
  | crash n => exact absurd rfl (hx n)
  | fail => exact Steady.pure _
  | _ =>
    refine Steady.bind getFS_steady fun fs => ?_
    dsimp only
    refine Steady.ite (Steady.pure _) ?_
    split
    · exact Steady.pure _
    · exact Steady.ite (Steady.pure _) (Steady.ite (Steady.bind (setFS_steady _) fun _ => Steady.pure _) (Steady.pure _))

theorem statOk_steady (path : CStr) : Steady (statOk path) := by
  unfold statOk
  refine Steady.tick (fun x hx => ?_) (fun n w => trivial)
  cases x with
  | crash n => exact absurd rfl (hx n)
  | fail => exact Steady.pure _
  | _ => exact Steady.bind getFS_steady fun fs => Steady.pure _

theorem mksubdirLoop_steady (base : CStr) : ∀ (todo done : CStr), Steady (mksubdirLoop base done todo) := by
  intro todo
  induction todo with
  | nil => intro done; exact Steady.pure _
  | cons c rest ih =>
    intro done
    unfold mksubdirLoop
    apply Steady.ite
    · dsimp only
      apply Steady.ite
      · exact Steady.bind (mkdirOk_steady _) fun b => Steady.ite (ih _) (Steady.pure _)
      · exact ih _
    · exact ih _

theorem mksubdirR_steady (base sub : CStr) : Steady (mksubdirR base sub) := by
  unfold mksubdirR
  exact Steady.bind (mksubdirLoop_steady _ _ _) fun b =>
    Steady.ite (Steady.bind (mkdirOk_steady _) fun b => Steady.ite (Steady.pure _) (Steady.pure _))
      (Steady.pure _)

theorem flushHeader_steady (bb : Block) : Steady (flushHeader bb) := by
  unfold flushHeader
  exact Steady.ite (Steady.bind (fopen_steady _ _) fun _ => Steady.ite (Steady.bind (writeText_steady _ _) fun _ =>
    Steady.ite (Steady.pure _) (Steady.pure _)) (Steady.pure _)) (Steady.pure _)

theorem writeAttrsV2_steady (env : Env) (s : AttrSet) (base : CStr) : Steady (writeAttrsV2 env s base) := by
  unfold writeAttrsV2
  refine Steady.bind (fopen_steady _ _) fun _ => Steady.ite (Steady.bind (Steady.lift _) ?_) (Steady.pure _)
  rintro ⟨txt, s'⟩
  exact Steady.bind (writeText_steady _ _) fun _ => Steady.ite (Steady.pure _) (Steady.pure _)

theorem blockFlush_steady (env : Env) (bb : Block) : Steady (blockFlush env bb) := by
  unfold blockFlush
  refine Steady.bind (flushHeader_steady bb) ?_
  rintro ⟨ok, bb'⟩
  dsimp only
  refine Steady.ite (Steady.pure _) (Steady.ite ?_ (Steady.pure _))
  refine Steady.bind (writeAttrsV2_steady _ _ _) ?_
  rintro ⟨rc, s⟩
  exact Steady.ite (Steady.pure _) (Steady.pure _)

theorem truncFiles_steady (base : CStr) : ∀ (n i : Nat), Steady (truncFiles base i n) := by
  intro n
  induction n with
  | zero => intro i; exact Steady.pure _
  | succ n ih =>
    intro i
    unfold truncFiles
    exact Steady.bind (fopen_steady _ _) fun b => Steady.ite (ih _) (Steady.pure _)

theorem createInternal_steady (env : Env) (base : CStr) (dt : Option CStr) (nmemb : Int) (fsize : List Nat) :
    Steady (createInternal env base dt nmemb fsize) := by
  unfold createInternal
  refine Steady.ite (Steady.pure _) ?_
  dsimp only
  refine Steady.ite ?_ ?_
  · refine Steady.bind (blockFlush_steady _ _) ?_
    rintro ⟨rc, bb⟩
    exact Steady.ite (Steady.pure _) (Steady.pure _)
  · refine Steady.bind (blockFlush_steady _ _) ?_
    rintro ⟨rc, bb⟩
    exact Steady.ite (Steady.pure _) (Steady.pure _)

theorem blockCreate_steady (env : Env) (base : CStr) (dt : Option CStr) (nmemb : Int) (fsize : List Nat) :
    Steady (blockCreate env base dt nmemb fsize) := by
  unfold blockCreate
  refine Steady.bind (createInternal_steady _ _ _ _ _) ?_
  intro r
  split
  · exact Steady.bind (truncFiles_steady _ _ _) fun b => Steady.ite (Steady.pure _) (Steady.pure _)
  · exact Steady.pure _

theorem createBlock_steady (env : Env) (bf name : CStr) (dt : Option CStr) (nmemb : Int) (fsize : List Nat) :
    Steady (createBlock env bf name dt nmemb fsize) := by
  unfold createBlock
  exact Steady.bind (mksubdirR_steady _ _) fun rc => Steady.ite (Steady.pure _) (blockCreate_steady _ _ _ _ _)

theorem blockGrow_steady (bb : Block) (g : List Nat) : Steady (blockGrow bb g) := by
  unfold blockGrow
  exact Steady.bind (truncFiles_steady _ _ _) fun b => Steady.ite (Steady.pure _) (Steady.pure _)

theorem bigFileCreate_steady (p : CStr) : Steady (bigFileCreate p) :=
  Steady.bind (mksubdirR_steady _ _) fun _ => Steady.pure _

theorem blockClose_steady (env : Env) (bb : Block) : Steady (blockClose env bb) := by
  unfold blockClose
  refine Steady.bind (blockFlush_steady _ _) ?_
  rintro ⟨rc, b⟩
  exact Steady.pure _

theorem writeChunk_steady (bb : Block) (f : Nat) (off fel : Int) (c : Nat) (d : List Byte) :
    Steady (writeChunk bb f off fel c d) := by
  unfold writeChunk
  refine Steady.bind (fopen_steady _ _) fun b => Steady.ite (Steady.ite (Steady.pure _) ?_) (Steady.pure _)
  exact Steady.bind (fwriteAt_steady _ _ _) fun n => Steady.pure _

theorem writeLoop_steady (env : Env) (fel : Int) (cs : Nat) (ca : Arr) :
    ∀ (fuel : Nat) (bb : Block) (ptr : Ptr) (it : Iter) (n : Int) (mem : Mem),
    Steady (writeLoop env fel cs ca fuel bb ptr it n mem) := by
  intro fuel
  induction fuel with
  | zero => intro bb ptr it n mem; exact Steady.hang
  | succ fuel ih =>
    intro bb ptr it n mem
    unfold writeLoop
    refine Steady.bind (Steady.lift _) fun e => Steady.ite (Steady.pure _) ?_
    refine Steady.bind (Steady.lift _) fun chunk => ?_
    refine Steady.bind (Steady.lift _) fun r => Steady.ite (Steady.pure _) ?_
    refine Steady.bind (Steady.lift _) fun old => ?_
    refine Steady.bind (writeChunk_steady _ _ _ _ _ _) fun ok => Steady.ite (Steady.pure _) ?_
    refine Steady.bind (Steady.lift _) ?_
    rintro ⟨rc, ptr'⟩
    exact Steady.ite (Steady.pure _) (ih _ _ _ _ _)

theorem blockWrite_steady (env : Env) (fuel : Nat) (bb : Block) (ptr : Ptr) (a : Arr) (mem : Mem) :
    Steady (blockWriteFuel env fuel bb ptr a mem) := by
  unfold blockWriteFuel
  refine Steady.ite (Steady.pure _) ?_
  dsimp only
  refine Steady.bind (Steady.lift _) ?_
  rintro ⟨nm, fel, cs⟩
  dsimp only
  refine Steady.bind (Steady.lift _) fun ca => ?_
  refine Steady.bind (Steady.lift _) fun fo => ?_
  exact Steady.ite (Steady.pure _) (writeLoop_steady _ _ _ _ _ _ _ _ _ _)

theorem readChunk_steady (bb : Block) (f : Nat) (off fel : Int) (c : Nat) :
    Steady (readChunk bb f off fel c) := by
  unfold readChunk
  refine Steady.bind (fopen_steady _ _) fun b => Steady.ite (Steady.ite (Steady.pure _) ?_) (Steady.pure _)
  exact Steady.bind (freadAt_steady _ _ _) fun n => Steady.pure _

theorem readLoop_steady (env : Env) (fel : Int) (cs : Nat) (ca : Arr) :
    ∀ (fuel : Nat) (bb : Block) (ptr : Ptr) (it : Iter) (n : Int) (mem : Mem),
    Steady (readLoop env fel cs ca fuel bb ptr it n mem) := by
  intro fuel
  induction fuel with
  | zero => intro bb ptr it n mem; exact Steady.hang
  | succ fuel ih =>
    intro bb ptr it n mem
    unfold readLoop
    refine Steady.bind (Steady.lift _) fun e => Steady.ite (Steady.pure _) ?_
    refine Steady.bind (Steady.lift _) fun chunk => Steady.ite (Steady.pure _) ?_
    refine Steady.bind (readChunk_steady _ _ _ _ _) fun d => ?_
    split
    · exact Steady.pure _
    · refine Steady.bind (Steady.lift _) fun r => Steady.ite (Steady.pure _) ?_
      refine Steady.bind (Steady.lift _) ?_
      rintro ⟨rc, ptr'⟩
      exact Steady.ite (Steady.pure _) (ih _ _ _ _ _)

theorem blockRead_steady (env : Env) (fuel : Nat) (bb : Block) (ptr : Ptr) (a : Arr) (mem : Mem) :
    Steady (blockReadFuel env fuel bb ptr a mem) := by
  unfold blockReadFuel
  refine Steady.bind (Steady.lift _) ?_
  rintro ⟨nm, fel, cs⟩
  dsimp only
  refine Steady.bind (Steady.lift _) fun ca => ?_
  refine Steady.bind (Steady.lift _) fun fo => ?_
  exact Steady.ite (Steady.pure _) (readLoop_steady _ _ _ _ _ _ _ _ _ _)

theorem readAttrsV1_steady (env : Env) (s : AttrSet) (base : CStr) : Steady (readAttrsV1 env s base) := by
  unfold readAttrsV1
  refine Steady.bind (fopen_steady _ _) fun b => Steady.ite ?_ (Steady.pure _)
  refine Steady.bind getFS_steady fun fs => Steady.bind (freadAt_steady _ _ _) fun bs => ?_
  refine Steady.bind (Steady.lift _) ?_
  rintro ⟨rc, s⟩
  exact Steady.pure _

theorem readAttrsV2_steady (env : Env) (s : AttrSet) (base : CStr) : Steady (readAttrsV2 env s base) := by
  unfold readAttrsV2
  refine Steady.bind (fopen_steady _ _) fun b => Steady.ite ?_ (Steady.pure _)
  refine Steady.bind getFS_steady fun fs => Steady.bind (freadAt_steady _ _ _) fun bs => ?_
  refine Steady.ite (Steady.pure _) (Steady.bind (Steady.lift _) ?_)
  rintro ⟨rc, s⟩
  exact Steady.pure _

theorem blockOpen_steady (env : Env) (base : CStr) : Steady (blockOpen env base) := by
  unfold blockOpen
  refine Steady.bind (readAttrsV1_steady _ _ _) ?_
  rintro ⟨rc, s⟩
  refine Steady.ite (Steady.pure _) (Steady.bind (readAttrsV2_steady _ _ _) ?_)
  rintro ⟨rc, s⟩
  refine Steady.ite (Steady.pure _) (Steady.ite ?_ (Steady.pure _))
  refine Steady.bind (fopen_steady _ _) fun b => Steady.ite ?_ (Steady.pure _)
  refine Steady.bind getFS_steady fun fs => Steady.bind (freadAt_steady _ _ _) fun bs => ?_
  split
  · exact Steady.pure _
  · exact Steady.ub
  · exact Steady.pure _

theorem readSimple_steady (env : Env) (bb : Block) (start size : Int) (dtype : Option CStr) (buf : Int) (mem : Mem) :
    Steady (readSimple env bb start size dtype buf mem) := by
  unfold readSimple
  refine Steady.bind (Steady.lift _) ?_
  rintro ⟨rc, ptr⟩
  refine Steady.ite (Steady.pure _) (Steady.ite (Steady.pure _) (Steady.bind (Steady.lift _) fun a => ?_))
  exact Steady.bind (blockRead_steady _ _ _ _ _ _) fun x => Steady.ite (Steady.pure _) (Steady.pure _)

theorem copyLoop_steady (env : Env) (bb : Block) (chunk : Nat) (buf : Int) : ∀ (fuel : Nat) (bbnew : Block) (offset : Nat) (mem : Mem),
    Steady (copyLoop env bb chunk buf fuel bbnew offset mem) := by
  intro fuel
  induction fuel with
  | zero => intro _ _ _; exact Steady.hang
  | succ fuel ih =>
    intro bbnew offset mem
    unfold copyLoop
    refine Steady.ite (Steady.bind (readSimple_steady _ _ _ _ _ _ _) ?_) (Steady.pure _)
    rintro ⟨rc, arr, mem⟩
    cases arr with
    | none => exact Steady.pure _
    | some a =>
      refine Steady.bind (Steady.lift _) ?_
      rintro ⟨rc, ptr⟩
      exact Steady.ite (Steady.pure _) (Steady.bind (blockWrite_steady _ _ _ _ _ _) fun x =>
        Steady.ite (Steady.pure _) (ih _ _ _))

theorem copyMain_steady (env : Env) (file block newfile newblock : CStr) (nfile : Option Nat) (buffersize : Nat) (buf : Int) (mem : Mem) :
    Steady (copyMain env file block newfile newblock nfile buffersize buf mem) := by
  unfold copyMain
  refine Steady.bind (Steady.bind (statOk_steady _) fun _ => Steady.ite (Steady.pure _) (Steady.pure _)) ?_
  rintro ⟨rc, bf⟩
  refine Steady.ite (Steady.pure _) (Steady.bind (bigFileCreate_steady _) ?_)
  rintro ⟨rc, bfnew⟩
  refine Steady.ite (Steady.pure _) (Steady.bind (blockOpen_steady _ _) ?_)
  rintro ⟨rc, o⟩
  cases o with
  | none => exact Steady.pure _
  | some bb =>
    refine Steady.bind (createBlock_steady _ _ _ _ _ _) ?_
    rintro ⟨rc, o⟩
    cases o with
    | none => exact Steady.pure _
    | some bbnew =>
      refine Steady.ite (Steady.pure _) (Steady.bind (Steady.lift _) ?_)
      rintro ⟨s, src⟩
      have hdata : ∀ bb bbnew, Steady (copyData env bb bbnew buffersize buf mem) := by
        intro bb bbnew
        unfold copyData
        exact Steady.ite (Steady.bind (Steady.lift _) fun _ => copyLoop_steady _ _ _ _ _ _ _ _) (Steady.pure _)
      refine Steady.bind (hdata _ _) ?_
      rintro ⟨e, bbnew⟩
      exact Steady.ite (Steady.pure _) (Steady.bind (blockClose_steady _ _) fun _ => Steady.ite (Steady.pure _)
        (Steady.bind (blockClose_steady _ _) fun _ => Steady.pure _))

/-- Without failures the process is not killed. -/
theorem Steady.returns {α : Type} {m : M α} (h : Steady m) {w : World} (hnf : w.faults = noFaults) {Q : α → World → Prop} {C : World → Prop}
    (hq : wpc m w Q C) : ∃ a w', m w = .ok a w' ∧ w'.faults = noFaults ∧ Q a w' := by
  have h := h w
  unfold wlp at h
  unfold wpc at hq
  cases hm : m w with
  | ok a w' =>
    rw [hm] at h hq
    exact ⟨a, w', rfl, h.1.trans hnf, hq⟩
  | crash w' =>
    rw [hm] at h
    obtain ⟨i, n, _, hi⟩ := h
    rw [hnf] at hi
    cases hi
  | ub => rw [hm] at hq; exact hq.elim
  | hang => rw [hm] at hq; exact hq.elim

end Verif
