import Verif.Proof.TreeKept
import Verif.Proof.Phases
import Verif.Props.Copy
import Verif.Props.CommLife
/-!
# Collective computations keep the tree; a block under another name of its directory
-/

set_option autoImplicit false

namespace Verif

open Verif.Spec

/-! ## The tree -/

/-- What rank 0 does in this collective computation keeps the tree. -/
def Phases.TreeSafe {α : Type} : Phases α → Prop
  | .ret _ => True
  | .ub => True
  | .hang => True
  | .root m k => KeepsTree m ∧ ∀ b, (k b).TreeSafe
  | .all _ _ k => ∀ out, (k out).TreeSafe

theorem Phases.TreeSafe.bind {α β : Type} {p : Phases α} {f : α → Phases β} (h : p.TreeSafe) (hf : ∀ a, (f a).TreeSafe) : (p >>= f).TreeSafe := by
  show (p.bind f).TreeSafe
  induction p with
  | ret a => exact hf a
  | ub => trivial
  | hang => trivial
  | root m k ih => exact ⟨h.1, fun b => ih b (h.2 b)⟩
  | all n P k ih => exact fun out => ih out (h out)

/-- It keeps the tree, however it ends. -/
theorem Phases.TreeSafe.ends {α : Type} {p : Phases α} {w : World} {o : Option α} {fs : FS} (he : p.Ends w o fs) : p.TreeSafe → TreeOk w.fs → TreeOk fs := by
  induction he with
  | ret a w => intro _ ht; exact ht
  | root m k w w' b o fs e _ ih =>
    intro h ht
    have := h.1 w ht
    unfold wlp at this
    rw [e] at this
    exact ih (h.2 b) this.1
  | rootKilled m k w w' e =>
    intro h ht
    have := h.1 w ht
    unfold wlp at this
    rw [e] at this
    exact this.1
  | all n P k w F es s out o fs _ hr _ _ _ ih =>
    intro h ht
    exact ih (h out) (run_keeps hr ht).1
  | allKilled n P k w F es s _ hr =>
    intro _ ht
    exact (run_keeps hr ht).1

theorem mpiFlush_keeps (env : Env) (n : Nat) (H : Nat → Block) : KeepsTree (mpiFlush env n H) := by
  unfold mpiFlush
  refine KeepsTree.bind (blockFlush_keeps _ _) ?_
  rintro ⟨rc, bb⟩
  exact KeepsTree.ite (KeepsTree.pure _) (KeepsTree.pure _)

theorem mpiClose_keeps (env : Env) (n : Nat) (H : Nat → Block) : KeepsTree (mpiClose env n H) := by
  unfold mpiClose
  exact KeepsTree.bind (mpiFlush_keeps _ _ _) fun _ => KeepsTree.pure _

theorem mpiOpen_keeps (env : Env) (base : CStr) : KeepsTree (mpiOpen env base) := by
  unfold mpiOpen
  refine KeepsTree.bind (blockOpen_keeps _ _) fun x => ?_
  split <;> exact KeepsTree.pure _

theorem mpiCreateBlock_treeSafe (env : Env) (n : Nat) (bf name : CStr) (dt : Option CStr) (nmemb : Int) (fsize : List Nat) :
    (mpiCreateBlock env n bf name dt nmemb fsize).TreeSafe := by
  unfold mpiCreateBlock
  refine Phases.TreeSafe.bind ⟨mpiCreateRoot_keeps _ _ _ _ _ _, fun _ => trivial⟩ fun x => ?_
  split
  · exact Phases.TreeSafe.bind (fun _ => trivial) fun _ => trivial
  · trivial

theorem runMOp_treeSafe (env : Env) (n : Nat) (H : Nat → Block) (op : MOp) : (runMOp env n H op).TreeSafe := by
  cases op with
  | write row arr mem sw c t => exact Phases.TreeSafe.bind (fun _ => trivial) fun _ => trivial
  | read row arr mem sw c t => exact Phases.TreeSafe.bind (fun _ => trivial) fun _ => trivial
  | grow sizes =>
    refine Phases.TreeSafe.bind ?_ fun _ => trivial
    unfold mpiGrow
    exact Phases.TreeSafe.bind (fun _ => trivial) fun _ => trivial
  | attr op => exact Phases.TreeSafe.bind (fun _ => trivial) fun _ => trivial
  | flush => exact Phases.TreeSafe.bind ⟨mpiFlush_keeps _ _ _, fun _ => trivial⟩ fun _ => trivial
  | reopen n' =>
    exact Phases.TreeSafe.bind ⟨mpiClose_keeps _ _ _, fun _ => trivial⟩ fun _ =>
      Phases.TreeSafe.bind ⟨mpiOpen_keeps _ _, fun _ => trivial⟩ fun _ => trivial

theorem runCommNoted_treeSafe (env : Env) (n : Nat) (bf : CStr) (p : CommSession) : ∀ hs : SharedHandles, (runCommNoted env n bf hs p).TreeSafe := by
  induction p with
  | stop => intro hs; trivial
  | create name dt nmemb sizes k ih =>
    intro hs
    unfold runCommNoted
    refine Phases.TreeSafe.bind (mpiCreateBlock_treeSafe _ _ _ _ _ _ _) ?_
    rintro ⟨c, o⟩
    exact Phases.TreeSafe.bind (ih c _) fun _ => trivial
  | use name op k ih =>
    intro hs
    unfold runCommNoted
    split
    · trivial
    · refine Phases.TreeSafe.bind (runMOp_treeSafe _ _ _ _) ?_
      rintro ⟨x, H'⟩
      exact Phases.TreeSafe.bind (ih x _) fun _ => trivial

/-! ## Another name for the directory of a block -/

theorem Spec.HoldsD.renamed {env : Env} {K : Kind} {bb : Block} {fs : FS} {S : Durable} (h : HoldsD env K bb fs S) {base : CStr}
    (hr : resolve bb.basename = resolve base) (hl : base.length ≤ 8192) (hm : isMeta base = false) :
    HoldsD env K { bb with basename := base } fs S := by
  have hk : ∀ id, fileKey base id = fileKey bb.basename id := fun id => by rw [fileKey_eq, fileKey_eq, hr]
  have hrow : ∀ r, row env.m fs { bb with basename := base } r = row env.m fs bb r := by
    intro r
    unfold row
    dsimp only
    rw [hk]
    rfl
  obtain ⟨o1, o2, o3, o4, o5, o6, o7, o8, o9⟩ := h.ok
  obtain ⟨l1, l2, l3, l4, l5, l6⟩ := o1
  obtain ⟨s1, s2, s3, s4, s5, s6, _, _⟩ := h.savable
  obtain ⟨g1, g2, g3, g4, g5, g6, g7, g8⟩ := s2
  refine ⟨⟨⟨l1, l2, l3, l4, l5, l6⟩, o2, o3, o4, o5, o6, o7, o8, o9⟩, h.kind, h.size, h.nfile,
    ⟨s1, ⟨g1, g2, g3, g4, g5, g6, g7, g8⟩, s3, s4, s5, s6, hl, hm⟩, h.attrs, h.pending, h.tame, ?_, ?_, ?_, ?_, ?_, ?_, ?_, ?_⟩
  · intro e
    obtain ⟨t1, t2, k1, k2, k3, k4⟩ := h.saved e
    refine ⟨t1, t2, ?_, ?_, k3, k4⟩
    · unfold readsV1 at k1 ⊢
      dsimp only
      rw [hk]
      exact k1
    · unfold readsV2 at k2 ⊢
      dsimp only
      rw [hk]
      exact k2
  · intro e
    refine ⟨(h.clean e).1, ?_⟩
    have := (h.clean e).2
    unfold HeaderSays at this ⊢
    dsimp only
    rw [hk]
    exact this
  · intro n k e
    obtain ⟨h1, h2, ck, h3, h4, h5⟩ := h.header n k e
    refine ⟨h1, h2, ck, h3, h4, ?_⟩
    unfold HeaderSays at h5 ⊢
    dsimp only at h5 ⊢
    rw [hk]
    exact h5
  · exact ⟨by show fs.node (resolve base) = _; rw [← hr]; exact h.dir.dir, by show fs.node (fileKey base _) ≠ _; rw [hk]; exact h.dir.header,
      by show fs.node (fileKey base _) ≠ _; rw [hk]; exact h.dir.attr⟩
  · show fs.node (fileKey base _) = _
    rw [hk]; exact h.noOld
  · intro f
    show fs.node (fileKey base _) ≠ _
    rw [hk]; exact h.noDirs f
  · intro e f hf
    show IsFile fs (fileKey base _)
    rw [hk]
    exact h.data e f hf
  · intro r bytes hb
    obtain ⟨h1, h2, h3⟩ := h.rows r bytes hb
    refine ⟨h1, by rw [hrow]; exact h2, ?_⟩
    unfold Stored at h3 ⊢
    rw [hrow]
    exact h3

end Verif
