import Verif.Proof.TreeKept
/-!
# Calls on a block touch no other file; what a successful create leaves behind
-/

set_option autoImplicit false

namespace Verif

open Spec

/-- Nothing but physical files of the block differs. -/
def SameOutside (base : CStr) (fs fs' : FS) : Prop :=
  ∀ k, (∀ id, k ≠ fileKey base id) → fs'.node k = fs.node k

theorem SameOutside.refl (base : CStr) (fs : FS) : SameOutside base fs fs := fun _ _ => rfl

theorem SameOutside.trans {base : CStr} {a b c : FS} (h : SameOutside base a b) (h' : SameOutside base b c) :
    SameOutside base a c := fun k hk => (h' k hk).trans (h k hk)

theorem SameOutside.set (base : CStr) (fs : FS) (id : FileId) (n : Node) :
    SameOutside base fs (fs.set (fileKey base id) n) := by
  intro k hk
  exact FS.set_other _ _ _ _ (hk id)

/-- The computation touches nothing but physical files of the block, also when killed. -/
def Touches {α : Type} (base : CStr) (m : M α) : Prop :=
  ∀ w, wlp m w (fun _ w' => SameOutside base w.fs w'.fs) (fun w' => SameOutside base w.fs w'.fs)

theorem Touches.bind {α β : Type} {base : CStr} {m : M α} {f : α → M β} (h : Touches base m) (h' : ∀ a, Touches base (f a)) :
    Touches base (m >>= f) := by
  intro w
  rw [wlp_bind]
  refine wlp_mono (h w) ?_ (fun _ h => h)
  intro a w1 h1
  exact wlp_mono (h' a w1) (fun _ _ h2 => h1.trans h2) (fun _ h2 => h1.trans h2)

theorem Touches.pure {α : Type} {base : CStr} (a : α) : Touches base (pure a : M α) := fun w => SameOutside.refl _ w.fs

theorem Touches.lift {α : Type} {base : CStr} (x : Option α) : Touches base (M.lift x) :=
  fun w => wlp_lift x w _ _ fun _ => SameOutside.refl _ w.fs

theorem Touches.ite {α : Type} {base : CStr} {c : Prop} [Decidable c] {a b : M α} (ha : Touches base a) (hb : Touches base b) :
    Touches base (if c then a else b) := by
  split
  · exact ha
  · exact hb

theorem Touches.hang {α : Type} {base : CStr} : Touches base (M.hang : M α) := fun _ => trivial
theorem Touches.ub {α : Type} {base : CStr} : Touches base (M.ub : M α) := fun _ => trivial

theorem openAFile_touches (base : CStr) (id : FileId) (mode : Mode) : Touches base (openAFile base id mode) := by
  intro w
  apply wlp_of_wpc
  cases mode with
  | r =>
    exact wpc_fopen_r _ _ _ _ (fun _ w' h1 _ _ _ => by rw [h1]; exact SameOutside.refl _ _)
      (fun w' h1 _ => by rw [h1]; exact SameOutside.refl _ _)
  | rplus =>
    exact wpc_fopen_rplus _ _ _ _ (fun _ w' h1 _ _ _ => by rw [h1]; exact SameOutside.refl _ _)
      (fun w' h1 _ => by rw [h1]; exact SameOutside.refl _ _)
  | w =>
    refine wpc_fopen_w _ _ _ _ ?_ (fun w' h1 _ => by intro k _; rw [h1])
    intro b w' _ h1 h2 _
    cases b with
    | false => intro k _; rw [h1 rfl]
    | true => rw [(h2 rfl).1]; exact SameOutside.set base _ id _

theorem fwriteAt_touches (base : CStr) (id : FileId) (off : Nat) (bs : List Byte) :
    Touches base (fwriteAt (filePath base id) off bs) := by
  intro w
  have hw : ∀ bs', SameOutside base w.fs (w.fs.writeFile (fileKey base id) off bs') := by
    intro bs' k hk
    unfold FS.writeFile
    split
    · exact if_neg (hk id)
    · rfl
  unfold fwriteAt
  rw [wlp_bind]
  show wlp _ ({ w with clock := w.clock + 1 } : World) _ _
  rw [wlp_bind]
  show wlp _ ({ w with clock := w.clock + 1 } : World) _ _
  dsimp only
  split
  · exact hw _
  · exact hw _
  · exact SameOutside.refl _ _
  · exact hw _
  · exact hw _

theorem freadAt_touches (base path : CStr) (off len : Nat) : Touches base (freadAt path off len) := by
  intro w
  unfold freadAt
  rw [wlp_bind]
  show wlp _ ({ w with clock := w.clock + 1 } : World) _ _
  rw [wlp_bind]
  show wlp _ ({ w with clock := w.clock + 1 } : World) _ _
  dsimp only
  split <;> exact SameOutside.refl _ _

theorem getFS_touches (base : CStr) : Touches base getFS := fun w => SameOutside.refl _ w.fs

theorem writeText_touches (base : CStr) (id : FileId) (bs : List Byte) : Touches base (writeText (filePath base id) bs) := by
  intro w
  have hw : ∀ bs', SameOutside base w.fs (w.fs.set (fileKey base id) (.file bs')) := fun bs' => SameOutside.set base _ id _
  unfold writeText
  rw [wlp_bind]
  show wlp _ ({ w with clock := w.clock + 1 } : World) _ _
  rw [wlp_bind]
  show wlp _ ({ w with clock := w.clock + 1 } : World) _ _
  dsimp only
  split
  · exact hw _
  · exact SameOutside.refl _ _
  · exact hw _
  · exact hw _
  · exact hw _

theorem flushHeader_touches (bb : Block) : Touches bb.basename (flushHeader bb) := by
  unfold flushHeader
  refine Touches.ite (Touches.bind (openAFile_touches _ _ _) fun b => Touches.ite ?_ (Touches.pure _)) (Touches.pure _)
  exact Touches.bind (writeText_touches _ _ _) fun b => Touches.ite (Touches.pure _) (Touches.pure _)

theorem writeAttrsV2_touches (env : Env) (s : AttrSet) (base : CStr) : Touches base (writeAttrsV2 env s base) := by
  unfold writeAttrsV2
  refine Touches.bind (openAFile_touches _ _ _) fun b => Touches.ite ?_ (Touches.pure _)
  refine Touches.bind (Touches.lift _) ?_
  rintro ⟨txt, s⟩
  exact Touches.bind (writeText_touches _ _ _) fun b => Touches.ite (Touches.pure _) (Touches.pure _)

theorem flushHeader_base (bb : Block) (w w' : World) (r : Bool × Block) (h : flushHeader bb w = .ok r w') :
    r.2.basename = bb.basename ∧ r.2.attrset = bb.attrset := by
  have : wlp (flushHeader bb) w (fun r _ => r.2.basename = bb.basename ∧ r.2.attrset = bb.attrset) (fun _ => True) := by
    unfold flushHeader
    split
    · rw [wlp_bind]
      refine wlp_mono (openAFile_touches bb.basename .header .w w) ?_ (fun _ _ => trivial)
      intro b w1 _
      cases b with
      | false => exact ⟨rfl, rfl⟩
      | true =>
        simp only [if_true]
        rw [wlp_bind]
        refine wlp_mono (writeText_touches bb.basename .header (headerText bb) w1) ?_ (fun _ _ => trivial)
        intro b w2 _
        cases b <;> exact ⟨rfl, rfl⟩
    · exact ⟨rfl, rfl⟩
  exact wlp_ok this h

theorem blockFlush_touches (env : Env) (bb : Block) : Touches bb.basename (blockFlush env bb) := by
  intro w
  unfold blockFlush
  rw [wlp_bind]
  have h0 := flushHeader_touches bb w
  unfold wlp at h0 ⊢
  cases hr : flushHeader bb w with
  | ub => trivial
  | hang => trivial
  | crash w' => rw [hr] at h0; exact h0
  | ok r w1 =>
    rw [hr] at h0
    obtain ⟨hb, hs⟩ := flushHeader_base bb w w1 r hr
    obtain ⟨ok, bb'⟩ := r
    have : Touches bb.basename (if (!ok) = true then pure ((-1 : Int), bb')
        else if bb'.attrset.dirty = true then do
          let (rc, s) ← writeAttrsV2 env bb'.attrset bb'.basename
          if rc ≠ 0 then pure (-1, { bb' with attrset := s })
          else pure (0, { bb' with attrset := { s with dirty := false } })
        else pure (0, bb')) := by
      refine Touches.ite (Touches.pure _) (Touches.ite ?_ (Touches.pure _))
      have hb : bb'.basename = bb.basename := hb
      rw [hb]
      refine Touches.bind (writeAttrsV2_touches _ _ _) ?_
      rintro ⟨rc, s⟩
      exact Touches.ite (Touches.pure _) (Touches.pure _)
    exact wlp_mono (this w1) (fun _ _ h => SameOutside.trans h0 h) (fun _ h => SameOutside.trans h0 h)

theorem blockClose_touches (env : Env) (bb : Block) : Touches bb.basename (blockClose env bb) := by
  unfold blockClose
  refine Touches.bind (blockFlush_touches _ _) ?_
  rintro ⟨rc, b⟩
  exact Touches.pure _

theorem truncFiles_touches (base : CStr) : ∀ (n i : Nat), Touches base (truncFiles base i n) := by
  intro n
  induction n with
  | zero => intro i; exact Touches.pure _
  | succ n ih =>
    intro i
    unfold truncFiles
    exact Touches.bind (openAFile_touches _ _ _) fun b => Touches.ite (ih _) (Touches.pure _)

theorem blockGrow_touches (bb : Block) (g : List Nat) : Touches bb.basename (blockGrow bb g) := by
  unfold blockGrow
  exact Touches.bind (truncFiles_touches _ _ _) fun b => Touches.ite (Touches.pure _) (Touches.pure _)

theorem writeChunk_touches (bb : Block) (f : Nat) (off fel : Int) (c : Nat) (d : List Byte) :
    Touches bb.basename (writeChunk bb f off fel c d) := by
  unfold writeChunk
  refine Touches.bind (openAFile_touches _ _ _) fun b => Touches.ite (Touches.ite (Touches.pure _) ?_) (Touches.pure _)
  exact Touches.bind (fwriteAt_touches _ _ _ _) fun n => Touches.pure _

theorem writeLoop_touches (env : Env) (fel : Int) (cs : Nat) (ca : Arr) (base : CStr) :
    ∀ (fuel : Nat) (bb : Block) (ptr : Ptr) (it : Iter) (n : Int) (mem : Mem), bb.basename = base →
    Touches base (writeLoop env fel cs ca fuel bb ptr it n mem) := by
  intro fuel
  induction fuel with
  | zero => intro bb ptr it n mem _; exact Touches.hang
  | succ fuel ih =>
    intro bb ptr it n mem hb
    subst hb
    unfold writeLoop
    refine Touches.bind (Touches.lift _) fun e => Touches.ite (Touches.pure _) ?_
    refine Touches.bind (Touches.lift _) fun chunk => ?_
    refine Touches.bind (Touches.lift _) fun r => Touches.ite (Touches.pure _) ?_
    refine Touches.bind (Touches.lift _) fun old => ?_
    refine Touches.bind (writeChunk_touches { bb with fchecksum := _ } _ _ _ _ _) fun ok => Touches.ite (Touches.pure _) ?_
    refine Touches.bind (Touches.lift _) ?_
    rintro ⟨rc, ptr'⟩
    exact Touches.ite (Touches.pure _) (ih _ _ _ _ _ rfl)

theorem blockWrite_touches (env : Env) (fuel : Nat) (bb : Block) (ptr : Ptr) (a : Arr) (mem : Mem) :
    Touches bb.basename (blockWriteFuel env fuel bb ptr a mem) := by
  unfold blockWriteFuel
  refine Touches.ite (Touches.pure _) ?_
  dsimp only
  refine Touches.bind (Touches.lift _) ?_
  rintro ⟨nm, fel, cs⟩
  dsimp only
  refine Touches.bind (Touches.lift _) fun ca => ?_
  refine Touches.bind (Touches.lift _) fun fo => ?_
  exact Touches.ite (Touches.pure _) (writeLoop_touches _ _ _ _ _ _ _ _ _ _ _ rfl)

theorem readChunk_touches (bb : Block) (f : Nat) (off fel : Int) (c : Nat) :
    Touches bb.basename (readChunk bb f off fel c) := by
  unfold readChunk
  refine Touches.bind (openAFile_touches _ _ _) fun b => Touches.ite (Touches.ite (Touches.pure _) ?_) (Touches.pure _)
  exact Touches.bind (freadAt_touches _ _ _ _) fun n => Touches.pure _

theorem readLoop_touches (env : Env) (fel : Int) (cs : Nat) (ca : Arr) (base : CStr) :
    ∀ (fuel : Nat) (bb : Block) (ptr : Ptr) (it : Iter) (n : Int) (mem : Mem), bb.basename = base →
    Touches base (readLoop env fel cs ca fuel bb ptr it n mem) := by
  intro fuel
  induction fuel with
  | zero => intro bb ptr it n mem _; exact Touches.hang
  | succ fuel ih =>
    intro bb ptr it n mem hb
    subst hb
    unfold readLoop
    refine Touches.bind (Touches.lift _) fun e => Touches.ite (Touches.pure _) ?_
    refine Touches.bind (Touches.lift _) fun chunk => Touches.ite (Touches.pure _) ?_
    refine Touches.bind (readChunk_touches _ _ _ _ _) fun d => ?_
    split
    · exact Touches.pure _
    · refine Touches.bind (Touches.lift _) fun r => Touches.ite (Touches.pure _) ?_
      refine Touches.bind (Touches.lift _) ?_
      rintro ⟨rc, ptr'⟩
      exact Touches.ite (Touches.pure _) (ih _ _ _ _ _ rfl)

theorem blockRead_touches (env : Env) (fuel : Nat) (bb : Block) (ptr : Ptr) (a : Arr) (mem : Mem) :
    Touches bb.basename (blockReadFuel env fuel bb ptr a mem) := by
  unfold blockReadFuel
  refine Touches.bind (Touches.lift _) ?_
  rintro ⟨nm, fel, cs⟩
  dsimp only
  refine Touches.bind (Touches.lift _) fun ca => ?_
  refine Touches.bind (Touches.lift _) fun fo => ?_
  exact Touches.ite (Touches.pure _) (readLoop_touches _ _ _ _ _ _ _ _ _ _ _ rfl)

theorem createInternal_touches (env : Env) (base : CStr) (dt : Option CStr) (nmemb : Int) (fsize : List Nat) :
    Touches (strdup base) (createInternal env base dt nmemb fsize) := by
  unfold createInternal
  refine Touches.ite (Touches.pure _) ?_
  dsimp only
  refine Touches.ite ?_ ?_
  · refine Touches.bind (blockFlush_touches env { basename := strdup base, .. }) ?_
    rintro ⟨rc, bb⟩
    exact Touches.ite (Touches.pure _) (Touches.pure _)
  · refine Touches.bind (blockFlush_touches env { basename := strdup base, .. }) ?_
    rintro ⟨rc, bb⟩
    exact Touches.ite (Touches.pure _) (Touches.pure _)

/-- What a flush that returned 0 has written is there, whatever was lost silently. -/
theorem blockFlush_files (env : Env) (bb : Block) (w : World) (ht : TreeOk w.fs) :
    wlp (blockFlush env bb) w
      (fun r w' => r.2.basename = bb.basename ∧ (r.1 = 0 →
        (bb.dirty = true → IsFile w'.fs (fileKey bb.basename .header)) ∧
        (bb.attrset.dirty = true → IsFile w'.fs (fileKey bb.basename .attrV2)))) (fun _ => True) := by
  have hhead : wlp (flushHeader bb) w (fun r w' => TreeOk w'.fs ∧ r.2.basename = bb.basename ∧
      r.2.attrset = bb.attrset ∧ (r.1 = true → bb.dirty = true → IsFile w'.fs (fileKey bb.basename .header)))
      (fun _ => True) := by
    unfold flushHeader
    split
    · rw [wlp_bind]
      refine wlp_mono (wlp_of_wpc (fopen_w_tree (filePath bb.basename .header) w ht)) ?_ (fun _ _ => trivial)
      rintro b w1 ⟨h1, h2⟩
      cases b with
      | false => exact ⟨h1.1, rfl, rfl, by simp⟩
      | true =>
        simp only [if_true]
        rw [wlp_bind]
        refine wlp_mono (writeText_tree _ (headerText bb) w1 h1.1 (h2 rfl)) ?_ (fun _ _ => trivial)
        intro b w2 h3
        cases b with
        | false => exact ⟨h3.1, rfl, rfl, by simp⟩
        | true => exact ⟨h3.1, rfl, rfl, fun _ _ => (h3.2 _).2 (h2 rfl)⟩
    · rename_i h
      exact ⟨ht, rfl, rfl, fun _ h' => absurd h' h⟩
  unfold blockFlush
  rw [wlp_bind]
  refine wlp_mono hhead ?_ (fun _ _ => trivial)
  rintro ⟨ok, bb'⟩ w1 ⟨h1, h2, h3, h4⟩
  dsimp only at h2 h3 h4 ⊢
  cases ok with
  | false => exact ⟨h2, by simp⟩
  | true =>
    simp only [Bool.not_true, Bool.false_eq_true, if_false]
    split
    · rename_i hd
      unfold writeAttrsV2
      rw [wlp_bind, wlp_bind]
      refine wlp_mono (wlp_of_wpc (fopen_w_tree (filePath bb'.basename .attrV2) w1 h1)) ?_ (fun _ _ => trivial)
      rintro b w2 ⟨k1, k2⟩
      cases b with
      | false => exact ⟨h2, by simp⟩
      | true =>
        simp only [if_true]
        rw [wlp_bind]
        apply wlp_lift
        rintro ⟨txt, s⟩
        dsimp only
        rw [wlp_bind]
        refine wlp_mono (writeText_tree _ txt w2 k1.1 (k2 rfl)) ?_ (fun _ _ => trivial)
        intro b w3 k3
        cases b with
        | false => exact ⟨h2, by simp⟩
        | true =>
          refine ⟨h2, fun _ => ⟨fun hd' => (k3.2 _).2 ((k1.2 _).2 (h4 rfl hd')), fun _ => ?_⟩⟩
          rw [← h2]
          exact (k3.2 _).2 (k2 rfl)
    · rename_i hd
      exact ⟨h2, fun _ => ⟨fun hd' => h4 rfl hd', fun hd' => absurd (by rw [h3]; exact hd') hd⟩⟩

theorem createInternal_files (env : Env) (base : CStr) (dt : Option CStr) (nmemb : Int) (fsize : List Nat)
    (w : World) (ht : TreeOk w.fs) :
    wlp (createInternal env base dt nmemb fsize) w
      (fun r w' => ∀ bb, r = (0, some bb) → bb.basename = strdup base ∧
        IsFile w'.fs (fileKey (strdup base) .attrV2) ∧
        (isMeta (strdup base) = false → IsFile w'.fs (fileKey (strdup base) .header))) (fun _ => True) := by
  have hfail : ∀ bb : Block, ((-1 : Int), (none : Option Block)) = (0, some bb) → False := by
    intro bb h; simp at h
  unfold createInternal
  split
  · exact fun bb h => (hfail bb h).elim
  · dsimp only
    split
    · rename_i hm
      rw [wlp_bind]
      refine wlp_mono (blockFlush_files env { basename := strdup base, .. } w ht) ?_ (fun _ _ => trivial)
      rintro ⟨rc, b⟩ w1 ⟨h1, h2⟩
      dsimp only at h1 h2 ⊢
      split
      · exact fun bb h => (hfail bb h).elim
      · rename_i hrc
        intro bb h
        simp only [Prod.mk.injEq, Option.some.injEq, true_and] at h
        subst h
        have h3 := h2 (by simpa using hrc)
        exact ⟨h1, h3.2 rfl, fun _ => h3.1 rfl⟩
    · rename_i hm
      rw [wlp_bind]
      refine wlp_mono (blockFlush_files env { basename := strdup base, .. } w ht) ?_ (fun _ _ => trivial)
      rintro ⟨rc, b⟩ w1 ⟨h1, h2⟩
      dsimp only at h1 h2 ⊢
      split
      · exact fun bb h => (hfail bb h).elim
      · rename_i hrc
        intro bb h
        simp only [Prod.mk.injEq, Option.some.injEq, true_and] at h
        subst h
        have h3 := h2 (by simpa using hrc)
        exact ⟨h1, h3.2 rfl, fun hm' => by rw [hm'] at hm; simp at hm⟩

/-- **Create** as a whole: what it touches, and what a return code of 0 promises about the files. -/
theorem blockCreate_files (env : Env) (base : CStr) (dt : Option CStr) (nmemb : Int) (fsize : List Nat)
    (w : World) (ht : TreeOk w.fs) :
    wlp (blockCreate env base dt nmemb fsize) w
      (fun r w' => Later w.fs w'.fs ∧ SameOutside (strdup base) w.fs w'.fs ∧
        (r.1 = 0 → IsFile w'.fs (fileKey (strdup base) .attrV2) ∧
          (isMeta (strdup base) = false → IsFile w'.fs (fileKey (strdup base) .header))))
      (fun w' => Later w.fs w'.fs ∧ SameOutside (strdup base) w.fs w'.fs) := by
  have h1 := createInternal_keeps env base dt nmemb fsize w ht
  have h2 := createInternal_touches env base dt nmemb fsize w
  have h3 := createInternal_files env base dt nmemb fsize w ht
  unfold blockCreate
  rw [wlp_bind]
  unfold wlp at h1 h2 h3 ⊢
  cases hr : createInternal env base dt nmemb fsize w with
  | ub => trivial
  | hang => trivial
  | crash w' => rw [hr] at h1 h2; exact ⟨h1, h2⟩
  | ok r w1 =>
    rw [hr] at h1 h2 h3
    dsimp only at h1 h2 h3 ⊢
    show wlp _ w1 _ _
    split
    · rename_i bb
      obtain ⟨k1, k2, k3⟩ := h3 bb rfl
      rw [wlp_bind, k1]
      have t1 := truncFiles_keeps (strdup base) bb.nfile 0 w1 h1.1
      have t2 := truncFiles_touches (strdup base) bb.nfile 0 w1
      unfold wlp at t1 t2 ⊢
      cases ht : truncFiles (strdup base) 0 bb.nfile w1 with
      | ub => trivial
      | hang => trivial
      | crash w' => rw [ht] at t1 t2; exact ⟨h1.trans t1, SameOutside.trans h2 t2⟩
      | ok b w2 =>
        rw [ht] at t1 t2
        dsimp only at t1 t2 ⊢
        cases b with
        | false => exact ⟨h1.trans t1, SameOutside.trans h2 t2, by simp⟩
        | true =>
          exact ⟨h1.trans t1, SameOutside.trans h2 t2, fun _ => ⟨(t1.2 _).2 k2, fun hm => (t1.2 _).2 (k3 hm)⟩⟩
    · exact ⟨h1, h2, by simp⟩

end Verif
