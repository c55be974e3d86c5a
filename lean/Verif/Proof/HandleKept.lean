import Verif.Proof.Withstands
import Verif.Proof.Shared
/-!
# What a collective transfer does to the handles, whatever fails
-/

set_option autoImplicit false

namespace Verif

open Spec

/-- Only the checksums of a handle have changed, and it may have become dirty. -/
structure HandleKept (bb bb' : Block) : Prop where
  shape : SameShape bb bb'
  layout : Layout bb → Layout bb'
  attrs : bb'.attrset = bb.attrset
  dirty : bb.dirty = true → bb'.dirty = true

theorem HandleKept.refl (bb : Block) : HandleKept bb bb := ⟨.rfl' _, id, rfl, id⟩

theorem HandleKept.trans {a b c : Block} (h : HandleKept a b) (g : HandleKept b c) : HandleKept a c :=
  ⟨h.shape.trans' g.shape, fun l => g.layout (h.layout l), g.attrs.trans h.attrs, fun d => g.dirty (h.dirty d)⟩

theorem HandleKept.dirtied (bb : Block) : HandleKept bb { bb with dirty := true } :=
  ⟨⟨rfl, rfl, rfl, rfl, rfl, rfl, rfl⟩,
    fun l => SameShape.layout (bb := bb) ⟨rfl, rfl, rfl, rfl, rfl, rfl, rfl⟩ l l.nck l.ck32, rfl, fun _ => rfl⟩

theorem HandleKept.summed {bb : Block} {f old : Nat} (ho : bb.fchecksum[f]? = some old) (bytes : List Byte) :
    HandleKept bb { bb with fchecksum := bb.fchecksum.set f (sysvsum old bytes) } := by
  refine ⟨⟨rfl, rfl, rfl, rfl, rfl, rfl, rfl⟩, fun l => ?_, rfl, id⟩
  refine SameShape.layout (bb := bb) ⟨rfl, rfl, rfl, rfl, rfl, rfl, rfl⟩ l ?_ ?_
  · show (bb.fchecksum.set f _).length = bb.nfile
    rw [List.length_set]
    exact l.nck
  · intro c hc
    rcases List.mem_or_eq_of_mem_set hc with hc | rfl
    · exact l.ck32 c hc
    · rw [sysvsum_spec _ _ (l.ck32 _ (List.mem_of_getElem? ho))]
      exact Nat.mod_lt _ (by decide)

theorem writeLoopP_kept (env : Env) (felsize : Int) (CS : Nat) (ca : Arr) : ∀ (fuel : Nat) (bb : Block) (ptr : Ptr) (it : Iter)
    (n : Int) (mem : Mem), (writeLoopP env felsize CS ca fuel bb ptr it n mem).Always fun x => HandleKept bb x.bb := by
  intro fuel
  induction fuel with
  | zero => intro bb ptr it n mem; trivial
  | succ fuel ih =>
    intro bb ptr it n mem
    unfold writeLoopP
    refine Prog.always_lift fun e _ => Prog.always_ite (fun _ => HandleKept.refl bb) fun _ => ?_
    refine Prog.always_lift fun chunk _ => Prog.always_lift fun r _ => ?_
    refine Prog.always_ite (fun _ => HandleKept.refl bb) fun _ => ?_
    refine Prog.always_lift fun old ho => Prog.always_any fun ok => ?_
    have hk := HandleKept.summed ho (peek r.dm 0 (chunk * felsize.toNat))
    refine Prog.always_ite (fun _ => hk) fun _ => Prog.always_lift fun q _ => ?_
    exact Prog.always_ite (fun _ => hk) fun _ => Prog.always_mono (ih _ _ _ _ _) fun x hx => hk.trans hx

theorem blockWriteP_kept (env : Env) (bb : Block) (ptr : Ptr) (a : Arr) (mem : Mem) :
    (blockWriteP env bb ptr a mem).Always fun x => HandleKept bb x.bb := by
  unfold blockWriteP
  refine Prog.always_ite (fun _ => HandleKept.refl bb) fun _ => ?_
  refine Prog.always_lift fun e _ => Prog.always_lift fun ca _ => Prog.always_lift fun fo _ => ?_
  refine Prog.always_ite (fun _ => HandleKept.dirtied bb) fun _ => ?_
  exact Prog.always_mono (writeLoopP_kept _ _ _ _ _ _ _ _ _ _) fun x hx => (HandleKept.dirtied bb).trans hx

theorem aggregatedP_kept (env : Env) (wr : Bool) (ms : List Nat) (root me : Nat) (off : Int) (ls : Nat) (st : Rank) :
    (aggregatedP env wr ms root me off ls st).Always fun x => HandleKept st.bb x.2.bb := by
  unfold aggregatedP
  refine Prog.always_ite (fun _ => ?_) fun _ => ?_
  · unfold aggWrite
    refine Prog.always_any fun counts => Prog.always_lift fun larr _ => Prog.always_lift fun r _ => Prog.always_any fun parts => ?_
    refine Prog.always_ite (fun _ => ?_) fun _ => Prog.always_any fun x => HandleKept.refl _
    refine Prog.always_bind ?_
    unfold leadWrite
    refine Prog.always_lift fun garr _ => Prog.always_lift fun q _ => Prog.always_bind ?_
    exact Prog.always_mono (blockWriteP_kept _ _ _ _ _) fun x hx => Prog.always_any fun _ => hx
  · unfold aggRead
    refine Prog.always_any fun counts => Prog.always_lift fun larr _ => ?_
    have hs : ∀ e g, (aggScatter env ms root me ls counts st larr e g).Always fun x => HandleKept st.bb x.2.bb := by
      intro e g
      unfold aggScatter
      exact Prog.always_any fun l => Prog.always_lift fun r _ => Prog.always_any fun x => HandleKept.refl _
    exact Prog.always_ite (fun _ => Prog.always_any fun x => hs _ _) fun _ => hs _ _

theorem throttleLoop_kept (env : Env) (wr : Bool) (me : Nat) (I : SegInfo) : ∀ (k s : Nat) (rt : Int) (st : Rank),
    (throttleLoop env wr me I k s rt st).Always fun x => HandleKept st.bb x.2.bb := by
  intro k
  induction k with
  | zero => intro s rt st; exact HandleKept.refl _
  | succ k ih =>
    intro s rt st
    unfold throttleLoop
    refine Prog.always_any fun _ => Prog.always_any fun x => ?_
    refine Prog.always_ite (fun _ => ih _ _ { st with err := x.2 }) fun _ =>
      Prog.always_ite (fun _ => ih _ _ { st with err := x.2 }) fun _ => Prog.always_any fun l => ?_
    refine Prog.always_bind (Prog.always_mono (aggregatedP_kept _ _ _ _ _ _ _ _) fun y hy => ?_)
    exact Prog.always_mono (ih _ _ _) fun z hz => hy.trans hz

theorem throttleP_kept (env : Env) (wr : Bool) (n : Nat) (conc : Int) (thr me : Nat) (st : Rank) :
    (throttleP env wr n conc thr me st).Always fun x => HandleKept st.bb x.2.bb := by
  unfold throttleP
  refine Prog.always_lift fun ls _ => Prog.always_any fun _ => Prog.always_any fun l => Prog.always_lift fun q _ => ?_
  refine Prog.always_bind (Prog.always_mono (throttleLoop_kept _ _ _ _ _ _ _ _) fun y hy => ?_)
  refine Prog.always_any fun x => Prog.always_ite (fun _ => hy) fun _ => Prog.always_lift fun p _ => hy

/-- The same for a transfer from a given row. -/
theorem xferP_kept (env : Env) (wr : Bool) (n : Nat) (conc : Int) (thr me : Nat) (off : Int) (bb : Block) (arr : Arr) (mem : Mem) :
    (xferP env wr n conc thr me off bb arr mem).Always fun x => HandleKept bb x.2.bb := by
  unfold xferP
  refine Prog.always_lift fun q _ => Prog.always_ite (fun _ => HandleKept.refl _) fun _ => ?_
  refine Prog.always_ite (fun _ => ?_) fun _ => ?_
  · exact throttleP_kept env true n conc thr me ⟨bb, q.2, arr, mem, none, b!"transfer failed"⟩
  · exact throttleP_kept env false n conc thr me ⟨bb, q.2, arr, mem, none, b!"transfer failed"⟩

/-! ## Reading does not change a handle -/

theorem aggregatedP_reads (env : Env) (ms : List Nat) (root me : Nat) (off : Int) (ls : Nat) (st : Rank) :
    (aggregatedP env false ms root me off ls st).Always fun x => x.2.bb = st.bb := by
  unfold aggregatedP
  refine Prog.always_ite (fun h => nomatch h) fun _ => ?_
  unfold aggRead
  refine Prog.always_any fun counts => Prog.always_lift fun larr _ => ?_
  have hs : ∀ e g, (aggScatter env ms root me ls counts st larr e g).Always fun x => x.2.bb = st.bb := by
    intro e g
    unfold aggScatter
    exact Prog.always_any fun l => Prog.always_lift fun r _ => Prog.always_any fun x => rfl
  exact Prog.always_ite (fun _ => Prog.always_any fun x => hs _ _) fun _ => hs _ _

theorem throttleLoop_reads (env : Env) (me : Nat) (I : SegInfo) : ∀ (k s : Nat) (rt : Int) (st : Rank),
    (throttleLoop env false me I k s rt st).Always fun x => x.2.bb = st.bb := by
  intro k
  induction k with
  | zero => intro s rt st; exact rfl
  | succ k ih =>
    intro s rt st
    unfold throttleLoop
    refine Prog.always_any fun _ => Prog.always_any fun x => ?_
    refine Prog.always_ite (fun _ => ih _ _ { st with err := x.2 }) fun _ =>
      Prog.always_ite (fun _ => ih _ _ { st with err := x.2 }) fun _ => Prog.always_any fun l => ?_
    refine Prog.always_bind (Prog.always_mono (aggregatedP_reads _ _ _ _ _ _ _) fun y hy => ?_)
    exact Prog.always_mono (ih _ _ _) fun z hz => hz.trans hy

theorem throttleP_reads (env : Env) (n : Nat) (conc : Int) (thr me : Nat) (st : Rank) :
    (throttleP env false n conc thr me st).Always fun x => x.2.bb = st.bb := by
  unfold throttleP
  refine Prog.always_lift fun ls _ => Prog.always_any fun _ => Prog.always_any fun l => Prog.always_lift fun q _ => ?_
  refine Prog.always_bind (Prog.always_mono (throttleLoop_reads _ _ _ _ _ _ _) fun y hy => ?_)
  refine Prog.always_any fun x => Prog.always_ite (fun _ => hy) fun _ => Prog.always_lift fun p _ => hy

end Verif
