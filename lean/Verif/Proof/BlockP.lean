import Verif.Model.BlockP
import Verif.Proof.Proc
import Verif.Proof.Read
import Verif.Proof.Transfer
/-!
# The stepwise programs are the functions of the model; which operations they do
-/

set_option autoImplicit false

namespace Verif

open Spec

variable {α β γ : Type}

/-! ## Monad laws -/

theorem Prog.bind_ret (x : Prog α) : x.bind Prog.ret = x := by
  induction x with
  | ret a => rfl
  | ub => rfl
  | hang => rfl
  | file op k ih => simp only [Prog.bind]; congr 1; funext r; exact ih r
  | coll c v k ih => simp only [Prog.bind]; congr 1; funext r; exact ih r

theorem Prog.bind_assoc (x : Prog α) (f : α → Prog β) (g : β → Prog γ) :
    (x.bind f).bind g = x.bind (fun a => (f a).bind g) := by
  induction x with
  | ret a => rfl
  | ub => rfl
  | hang => rfl
  | file op k ih => simp only [Prog.bind]; congr 1; funext r; exact ih r
  | coll c v k ih => simp only [Prog.bind]; congr 1; funext r; exact ih r

theorem M.bind_assoc (x : M α) (f : α → M β) (g : β → M γ) :
    M.bind (M.bind x f) g = M.bind x (fun a => M.bind (f a) g) := by
  funext w
  simp only [M.bind]
  cases x w <;> rfl

theorem M.bind_pure (x : M α) : M.bind x M.pure = x := by
  funext w
  simp only [M.bind]
  cases x w <;> rfl

theorem Prog.interp_bind (x : Prog α) (f : α → Prog β) :
    (x.bind f).interp = M.bind x.interp (fun a => (f a).interp) := by
  induction x with
  | ret a => funext w; rfl
  | ub => funext w; rfl
  | hang => funext w; rfl
  | coll c v k ih => funext w; rfl
  | file op k ih =>
    simp only [Prog.bind, Prog.interp]
    show M.bind op.run _ = M.bind (M.bind op.run _) _
    rw [M.bind_assoc]
    congr 1
    funext r
    exact ih r

theorem Prog.interp_lift (x : Option α) : (Prog.lift x).interp = M.lift x := by
  cases x <;> rfl

theorem Prog.interp_fopen (path : CStr) (mode : Mode) : (Prog.fopen path mode).interp = Verif.fopen path mode := by
  show M.bind (M.bind (Verif.fopen path mode) (fun b => M.pure (Resp.ok b))) (fun r => M.pure r.isOk) = _
  rw [M.bind_assoc]
  exact M.bind_pure _

theorem Prog.interp_fwrite (path : CStr) (off : Nat) (bs : List Byte) :
    (Prog.fwrite path off bs).interp = fwriteAt path off bs := by
  show M.bind (M.bind (fwriteAt path off bs) (fun b => M.pure (Resp.count b))) (fun r => M.pure r.num) = _
  rw [M.bind_assoc]
  exact M.bind_pure _

theorem Prog.interp_fread (path : CStr) (off len : Nat) : (Prog.fread path off len).interp = freadAt path off len := by
  show M.bind (M.bind (freadAt path off len) (fun b => M.pure (Resp.data b))) (fun r => M.pure r.bytes) = _
  rw [M.bind_assoc]
  exact M.bind_pure _

/-! ## The programs are the functions of the model -/

theorem interp_writeChunk (bb : Block) (fileid : Nat) (off fel : Int) (chunk : Nat) (bytes : List Byte) :
    (writeChunkP bb fileid off fel chunk bytes).interp = writeChunk bb fileid off fel chunk bytes := by
  unfold writeChunkP writeChunk openAFile
  refine (Prog.interp_bind _ _).trans ?_
  rw [Prog.interp_fopen]
  refine congrArg (M.bind _) ?_
  funext b
  cases b
  · rfl
  · simp only [if_true]
    split
    · rfl
    · refine (Prog.interp_bind _ _).trans ?_
      rw [Prog.interp_fwrite]
      rfl

theorem interp_writeLoop (env : Env) (fel : Int) (cs : Nat) (ca : Arr) :
    ∀ (fuel : Nat) (bb : Block) (ptr : Ptr) (it : Iter) (n : Int) (mem : Mem),
    (writeLoopP env fel cs ca fuel bb ptr it n mem).interp = writeLoop env fel cs ca fuel bb ptr it n mem := by
  intro fuel
  induction fuel with
  | zero => intros; rfl
  | succ fuel ih =>
    intro bb ptr it n mem
    unfold writeLoopP writeLoop
    refine (Prog.interp_bind _ _).trans ?_
    rw [Prog.interp_lift]
    refine congrArg (M.bind _) (funext fun e => ?_)
    split
    · rfl
    refine (Prog.interp_bind _ _).trans ?_
    rw [Prog.interp_lift]
    refine congrArg (M.bind _) (funext fun chunk => ?_)
    refine (Prog.interp_bind _ _).trans ?_
    rw [Prog.interp_lift]
    refine congrArg (M.bind _) (funext fun r => ?_)
    split
    · rfl
    refine (Prog.interp_bind _ _).trans ?_
    rw [Prog.interp_lift]
    refine congrArg (M.bind _) (funext fun old => ?_)
    refine (Prog.interp_bind _ _).trans ?_
    rw [interp_writeChunk]
    refine congrArg (M.bind _) (funext fun ok => ?_)
    split
    · rfl
    refine (Prog.interp_bind _ _).trans ?_
    rw [Prog.interp_lift]
    refine congrArg (M.bind _) (funext fun q => ?_)
    obtain ⟨rc, ptr'⟩ := q
    simp only
    split
    · rfl
    · exact ih _ _ _ _ _

/-- `big_block_write` in steps, run by one process, is `big_block_write`. -/
theorem interp_blockWrite (env : Env) (bb : Block) (ptr : Ptr) (a : Arr) (mem : Mem) :
    (blockWriteP env bb ptr a mem).interp = blockWrite env bb ptr a mem := by
  unfold blockWriteP blockWrite blockWriteFuel
  split
  · rfl
  refine (Prog.interp_bind _ _).trans ?_
  rw [Prog.interp_lift]
  refine congrArg (M.bind _) (funext fun q => ?_)
  obtain ⟨nmemb, fel, cs⟩ := q
  refine (Prog.interp_bind _ _).trans ?_
  rw [Prog.interp_lift]
  refine congrArg (M.bind _) (funext fun ca => ?_)
  refine (Prog.interp_bind _ _).trans ?_
  rw [Prog.interp_lift]
  refine congrArg (M.bind _) (funext fun fo => ?_)
  simp only
  split
  · rfl
  · exact interp_writeLoop _ _ _ _ _ _ _ _ _ _

theorem interp_readChunk (bb : Block) (fileid : Nat) (off fel : Int) (chunk : Nat) :
    (readChunkP bb fileid off fel chunk).interp = readChunk bb fileid off fel chunk := by
  unfold readChunkP readChunk openAFile
  refine (Prog.interp_bind _ _).trans ?_
  rw [Prog.interp_fopen]
  refine congrArg (M.bind _) ?_
  funext b
  cases b
  · rfl
  · simp only [if_true]
    split
    · rfl
    · refine (Prog.interp_bind _ _).trans ?_
      rw [Prog.interp_fread]
      rfl

theorem interp_readLoop (env : Env) (fel : Int) (cs : Nat) (ca : Arr) :
    ∀ (fuel : Nat) (bb : Block) (ptr : Ptr) (it : Iter) (n : Int) (mem : Mem),
    (readLoopP env fel cs ca fuel bb ptr it n mem).interp = readLoop env fel cs ca fuel bb ptr it n mem := by
  intro fuel
  induction fuel with
  | zero => intros; rfl
  | succ fuel ih =>
    intro bb ptr it n mem
    unfold readLoopP readLoop
    refine (Prog.interp_bind _ _).trans ?_
    rw [Prog.interp_lift]
    refine congrArg (M.bind _) (funext fun e => ?_)
    split
    · rfl
    refine (Prog.interp_bind _ _).trans ?_
    rw [Prog.interp_lift]
    refine congrArg (M.bind _) (funext fun chunk => ?_)
    split
    · rfl
    refine (Prog.interp_bind _ _).trans ?_
    rw [interp_readChunk]
    refine congrArg (M.bind _) (funext fun d => ?_)
    cases d with
    | none => rfl
    | some d =>
      simp only
      refine (Prog.interp_bind _ _).trans ?_
      rw [Prog.interp_lift]
      refine congrArg (M.bind _) (funext fun r => ?_)
      split
      · rfl
      refine (Prog.interp_bind _ _).trans ?_
      rw [Prog.interp_lift]
      refine congrArg (M.bind _) (funext fun q => ?_)
      obtain ⟨rc, ptr'⟩ := q
      simp only
      split
      · rfl
      · exact ih _ _ _ _ _

/-- `big_block_read` in steps, run by one process, is `big_block_read`. -/
theorem interp_blockRead (env : Env) (bb : Block) (ptr : Ptr) (a : Arr) (mem : Mem) :
    (blockReadP env bb ptr a mem).interp = blockRead env bb ptr a mem := by
  unfold blockReadP blockRead blockReadFuel
  refine (Prog.interp_bind _ _).trans ?_
  rw [Prog.interp_lift]
  refine congrArg (M.bind _) (funext fun q => ?_)
  obtain ⟨nmemb, fel, cs⟩ := q
  refine (Prog.interp_bind _ _).trans ?_
  rw [Prog.interp_lift]
  refine congrArg (M.bind _) (funext fun ca => ?_)
  refine (Prog.interp_bind _ _).trans ?_
  rw [Prog.interp_lift]
  refine congrArg (M.bind _) (funext fun fo => ?_)
  simp only
  split
  · rfl
  · exact interp_readLoop _ _ _ _ _ _ _ _ _ _

end Verif
