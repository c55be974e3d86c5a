import Verif.Model.KillFiles
import Verif.Proof.Kill
import Verif.Proof.Jobs
/-!
# Work from a queue when operations fail and processes are killed
-/

set_option autoImplicit false

namespace Verif

open Spec

variable {α β : Type}

/-! ## Operations -/

theorem FOp.Passive.does {op : FOp} (h : op.Passive) (f : Fault) (nd : Nodes) :
    op.does f nd = (match f with | .crash _ => none | f => some (op.answer f nd), nd) := by
  cases op with
  | fwrite path off bs => exact h.elim
  | fopen path mode =>
    cases mode with
    | w => exact h.elim
    | r =>
      cases f <;> simp [FOp.does, FOp.run, Verif.fopen, bind, M.bind, tick, pure, M.pure, getFS, die, FOp.answer]
    | rplus =>
      rw [does_rplus]
      cases f <;> rfl
  | fread path off len =>
    cases f <;> simp [FOp.does, FOp.run, freadAt, bind, M.bind, tick, pure, M.pure, getFS, die, FOp.answer, FS.bytes]

theorem ReadOf.answer {m : Machine} {src : CStr} {bn : Block} {p n : Nat} (ha : resolve src ≠ resolve bn.basename) {o o' : FOp}
    (h : ReadOf src o) (h' : WriteIn m bn p n o') (f f' : Fault) (nd : Nodes) : o.answer f (o'.does f' nd).2 = o.answer f nd := by
  cases o' with
  | fread path off len => exact h'.elim
  | fopen path mode =>
    cases mode with
    | r => exact h'.elim
    | w => exact h'.elim
    | rplus => rw [does_rplus]
  | fwrite path off bs =>
    obtain ⟨g, r, c, _, rfl, _⟩ := h'
    rw [does_fwrite]
    dsimp only
    cases o with
    | fwrite path off bs => exact h.elim
    | fopen path mode =>
      cases mode with
      | r => simp only [FOp.answer, putBytes_isSome]
      | w => exact h.elim
      | rplus => exact h.elim
    | fread path off' len =>
      obtain ⟨g', rfl⟩ := h
      have hk : resolve (filePath src (.data g')) ≠ resolve (filePath bn.basename (.data g)) :=
        fun he => ha (C38_files_distinct _ _ _ _ he).1
      have hb : ∀ c, FS.bytes ⟨putBytes nd (resolve (filePath bn.basename (.data g))) off c, []⟩ (resolve (filePath src (.data g'))) =
          FS.bytes ⟨nd, []⟩ (resolve (filePath src (.data g'))) := by
        intro c
        apply bytes_congr
        unfold putBytes FS.writeFile
        dsimp only
        split
        · simp only [if_neg hk]
        · rfl
      simp only [FOp.answer, hb]

/-- What the process that writes learns does not depend on who reads. -/
theorem ReadOf.doCommute {m : Machine} {src : CStr} {bn : Block} {p n : Nat} (ha : resolve src ≠ resolve bn.basename) {o o' : FOp}
    (h : ReadOf src o) (h' : WriteIn m bn p n o') (f f' : Fault) : DoCommute o f o' f' := by
  intro nd
  have e := h.answer ha h'
  rw [h.passive.does f nd, h.passive.does f (o'.does f' nd).2]
  refine ⟨rfl, ?_, rfl⟩
  cases f <;> simp only [e]

theorem RangeOp.doCommute {m : Machine} {src : CStr} {bn : Block} {p n p' n' : Nat} (ha : resolve src ≠ resolve bn.basename)
    (hd : p + n ≤ p' ∨ p' + n' ≤ p) {o o' : FOp} (h : RangeOp m src bn p n o) (h' : RangeOp m src bn p' n' o') (f f' : Fault) :
    DoCommute o f o' f' := by
  rcases h with h | h <;> rcases h' with h' | h'
  · intro nd
    have hans : ∀ (x : FOp) g, x.Passive → ∀ nd, (x.does g nd).2 = nd := fun x g hx nd => by rw [hx.does]
    rw [hans _ _ h.passive, hans _ _ h'.passive, hans _ _ h.passive]
    exact ⟨rfl, rfl, rfl⟩
  · exact h.doCommute ha h' f f'
  · exact (h'.doCommute ha h f' f).symm
  · exact h.doCommute hd h' f f'

/-- An operation changes nothing but data files of the new block. -/
theorem RangeOp.other {m : Machine} {src : CStr} {bn : Block} {p n : Nat} {o : FOp} (h : RangeOp m src bn p n o) (f : Fault) (nd : Nodes)
    (k : Key) (hk : ∀ g, k ≠ fileKey bn.basename (.data g)) : (o.does f nd).2 k = nd k := by
  rcases h with h | h
  · rw [h.passive.does]
  · cases o with
    | fread path off len => exact h.elim
    | fopen path mode =>
      cases mode with
      | r => exact h.elim
      | w => exact h.elim
      | rplus => rw [does_rplus]
    | fwrite path off bs =>
      obtain ⟨g, r, c, _, rfl, _⟩ := h
      rw [does_fwrite]
      unfold putBytes FS.writeFile
      dsimp only
      split
      · exact if_neg (hk g)
      · rfl

theorem RangeOp.isFile {m : Machine} {src : CStr} {bn : Block} {p n : Nat} {o : FOp} (h : RangeOp m src bn p n o) (f : Fault) (nd : Nodes)
    (k : Key) : IsFile ⟨(o.does f nd).2, []⟩ k ↔ IsFile ⟨nd, []⟩ k := by
  rcases h with h | h
  · rw [h.passive.does]
  · cases o with
    | fread path off len => exact h.elim
    | fopen path mode =>
      cases mode with
      | r => exact h.elim
      | w => exact h.elim
      | rplus => rw [does_rplus]
    | fwrite path off bs =>
      rw [does_fwrite]
      exact putBytes_file _ _ _ _ _

/-- Stored rows elsewhere stay. -/
theorem RangeOp.row {m : Machine} {src : CStr} {bn : Block} {p n : Nat} {o : FOp} (h : RangeOp m src bn p n o) (f : Fault) (nd : Nodes)
    (r : Nat) (hr : r < p ∨ p + n ≤ r) (hs : Stored m ⟨nd, []⟩ bn r) :
    Spec.row m ⟨(o.does f nd).2, []⟩ bn r = Spec.row m ⟨nd, []⟩ bn r := by
  rcases Nat.eq_zero_or_pos (rowSize m bn) with h0 | hpos
  · unfold Spec.row; rw [h0]; simp
  rcases h with h | h
  · rw [h.passive.does]
  · cases o with
    | fread path off len => exact h.elim
    | fopen path mode =>
      cases mode with
      | r => exact h.elim
      | w => exact h.elim
      | rplus => rw [does_rplus]
    | fwrite path off bs =>
      obtain ⟨g, r', c, _, rfl, h1, h2, h3, h4⟩ := h
      rw [does_fwrite, stored_len m _ bn r hpos] at *
      have hlen : (bs.take (reachLen f bs.length)).length ≤ c * rowSize m bn := by
        rw [List.length_take]; omega
      generalize bs.take (reachLen f bs.length) = cs at *
      have hloc := locate_start bn.fsize r
      unfold Spec.row
      rw [show (⟨putBytes nd (resolve (filePath bn.basename (.data g))) off cs, []⟩ : FS) =
        ⟨(FS.writeFile ⟨nd, []⟩ (fileKey bn.basename (.data g)) off cs).node, []⟩ by rw [putBytes_eq]; rfl]
      by_cases hg : g = rowFile bn r
      · subst hg
        by_cases hF : IsFile ⟨nd, []⟩ (fileKey bn.basename (.data (rowFile bn r)))
        · have hb := bytes_writeFile_same ⟨nd, []⟩ (fileKey bn.basename (.data (rowFile bn r))) off cs hF
          unfold FS.bytes at hb ⊢
          rw [hb]
          apply slice_writeAt_other
          · have hoff : rowOff m bn r = (locate bn.fsize r).2 * rowSize m bn := rfl
            have hst : start bn.fsize (rowFile bn r) + (locate bn.fsize r).2 = r := hloc
            rcases hr with hr | hr
            · have : ((locate bn.fsize r).2 + 1) * rowSize m bn ≤ r' * rowSize m bn := Nat.mul_le_mul_right _ (by omega)
              rw [Nat.add_mul] at this
              omega
            · have : (r' + c) * rowSize m bn ≤ (locate bn.fsize r).2 * rowSize m bn := Nat.mul_le_mul_right _ (by omega)
              rw [Nat.add_mul] at this
              omega
          · exact hs
        · rw [writeFile_nofile _ _ _ _ hF]
      · have hb := bytes_writeFile_other ⟨nd, []⟩ (fileKey bn.basename (.data g)) (fileKey bn.basename (.data (rowFile bn r))) off cs
          (dataKey_ne _ _ _ (fun e => hg e.symm))
        unfold FS.bytes at hb ⊢
        rw [hb]

/-! ## What other processes do meanwhile -/

/-- The files `b` are the files `a` after some operations that satisfy `E`. -/
inductive Meanwhile (E : FOp → Prop) (a : Nodes) : Nodes → Prop where
  | nil : Meanwhile E a a
  | snoc {b : Nodes} (h : Meanwhile E a b) (o : FOp) (f : Fault) (ho : E o) : Meanwhile E a (o.does f b).2

/-- An operation that commutes with all of them has the same answer before and after them. -/
theorem Meanwhile.push {E : FOp → Prop} {a b : Nodes} (h : Meanwhile E a b) {o : FOp} {f : Fault} (hc : ∀ o' f', E o' → DoCommute o f o' f') :
    (o.does f b).1 = (o.does f a).1 ∧ Meanwhile E (o.does f a).2 (o.does f b).2 := by
  induction h with
  | nil => exact ⟨rfl, .nil⟩
  | @snoc b h o' f' ho' ih =>
    obtain ⟨h1, h2, h3⟩ := hc o' f' ho' b
    refine ⟨h2.trans ih.1, ?_⟩
    have := ih.2.snoc o' f' ho'
    rw [h3] at this
    exact this

/-! ## Programs that notice every failure -/

/-- Everything the program may return satisfies `P`. -/
def Prog.Ends (P : α → Prop) : Prog α → Prop
  | .ret a => P a
  | .ub => True
  | .hang => True
  | .file _ k => ∀ r, (k r).Ends P
  | .coll _ _ k => ∀ l, (k l).Ends P

theorem Prog.Ends.bind {P : α → Prop} {Q : β → Prop} {x : Prog α} {f : α → Prog β} (hx : x.Ends P) (hf : ∀ v, P v → (f v).Ends Q) :
    (x.bind f).Ends Q := by
  induction x with
  | ret v => exact hf v hx
  | ub => trivial
  | hang => trivial
  | file op k ih => exact fun r => ih r (hx r)
  | coll c v k ih => exact fun l => ih l (hx l)

/-- The answer says that the operation was not done completely. -/
def FOp.Bad : FOp → Resp → Prop
  | .fopen _ _, r => r.isOk = false
  | .fwrite _ _ bs, r => r.num < bs.length
  | .fread _ _ len, r => r.bytes.length < len

/-- After an operation that was not done completely, whatever the program returns satisfies `P`. -/
def Prog.Picky (P : α → Prop) : Prog α → Prop
  | .ret _ => True
  | .ub => True
  | .hang => True
  | .file op k => (∀ r, op.Bad r → (k r).Ends P) ∧ ∀ r, (k r).Picky P
  | .coll _ _ k => ∀ l, (k l).Picky P

theorem Prog.Picky.bind {P : α → Prop} {Q : β → Prop} {x : Prog α} {f : α → Prog β} (hx : x.Picky P) (hf : ∀ v, P v → (f v).Ends Q)
    (hq : ∀ v, (f v).Picky Q) : (x.bind f).Picky Q := by
  induction x with
  | ret v => exact hq v
  | ub => trivial
  | hang => trivial
  | file op k ih => exact ⟨fun r hr => (hx.1 r hr).bind hf, fun r => ih r (hx.2 r)⟩
  | coll c v k ih => exact fun l => ih l (hx l)

theorem Prog.Picky.lift_bind {Q : β → Prop} {x : Option α} {f : α → Prog β} (h : ∀ a, x = some a → (f a).Picky Q) :
    (Prog.bind (Prog.lift x) f).Picky Q := by
  cases x with
  | none => trivial
  | some a => exact h a rfl

/-- Either the operation went as if nothing had failed, or the answer shows it. -/
theorem FOp.does_noFault {op : FOp} (hop : op.Passive ∨ ∃ path off bs, op = .fwrite path off bs) (f : Fault) (nd : Nodes) :
    op.does f nd = op.does .none nd ∨ ∀ r, (op.does f nd).1 = some r → op.Bad r := by
  rcases hop with h | ⟨path, off, bs, rfl⟩
  · rw [h.does, h.does]
    cases f with
    | none => exact Or.inl rfl
    | crash n => right; rintro r hr; cases hr
    | silent n =>
      left
      cases op with
      | fwrite path off bs => exact h.elim
      | fopen path mode => cases mode <;> first | rfl | exact h.elim
      | fread path off len => rfl
    | fail =>
      cases op with
      | fwrite path off bs => exact h.elim
      | fopen path mode =>
        right
        rintro r hr
        injection hr with hr
        subst hr
        cases mode <;> rfl
      | fread path off len =>
        cases len with
        | zero => left; simp [FOp.answer]
        | succ len =>
          right
          rintro r hr
          injection hr with hr
          subst hr
          simp [FOp.Bad, FOp.answer, Resp.bytes]
    | short n =>
      cases op with
      | fwrite path off bs => exact h.elim
      | fopen path mode => cases mode <;> first | exact Or.inl rfl | exact h.elim
      | fread path off len =>
        by_cases hl : ((((FS.bytes ⟨nd, []⟩ (resolve path)).drop off).take len).take n).length < len
        · right
          rintro r hr
          injection hr with hr
          subst hr
          exact hl
        · left
          have : (((FS.bytes ⟨nd, []⟩ (resolve path)).drop off).take len).take n = ((FS.bytes ⟨nd, []⟩ (resolve path)).drop off).take len := by
            apply List.take_of_length_le
            simp only [List.length_take] at hl ⊢
            omega
          simp only [FOp.answer, this]
  · rw [does_fwrite, does_fwrite]
    have bad : ∀ m, m < bs.length → (FOp.fwrite path off bs).Bad (.count (min m bs.length)) := by
      intro m hm
      show min m bs.length < bs.length
      omega
    cases f with
    | none => exact Or.inl rfl
    | silent n => exact Or.inl rfl
    | crash n => right; rintro r hr; cases hr
    | fail =>
      cases bs with
      | nil => exact Or.inl rfl
      | cons b bs =>
        right
        rintro r hr
        injection hr with hr
        subst hr
        exact bad 0 (by simp)
    | short n =>
      by_cases hn : n < bs.length
      · right
        rintro r hr
        injection hr with hr
        subst hr
        exact bad n hn
      · left
        simp only [reachLen]
        rw [List.take_of_length_le (by omega), List.take_of_length_le (Nat.le_refl _), Nat.min_eq_right (by omega), Nat.min_self]

end Verif
