import Verif.Proof.BlocksMay
import Verif.Proof.TreeOnly
/-!
# Making a block, also if it is interrupted, leaves room for making it again
-/

set_option autoImplicit false

namespace Verif

open Spec

/-- If there is room for the block there is room afterwards, also if the computation is killed. -/
def Gentle {α : Type} (base : CStr) (m : M α) : Prop :=
  ∀ w, Clear w.fs base → wlp m w (fun _ w' => Clear w'.fs base) (fun w' => Clear w'.fs base)

theorem Gentle.bind {α β : Type} {base : CStr} {m : M α} {f : α → M β} (h : Gentle base m) (h' : ∀ a, Gentle base (f a)) :
    Gentle base (m >>= f) := by
  intro w hc
  rw [wlp_bind]
  exact wlp_mono (h w hc) (fun a w1 h1 => h' a w1 h1) (fun _ h => h)

theorem Gentle.pure {α : Type} {base : CStr} (a : α) : Gentle base (pure a : M α) := fun _ h => h

theorem Gentle.lift {α : Type} {base : CStr} (x : Option α) : Gentle base (M.lift x) :=
  fun w h => wlp_lift x w _ _ fun _ => h

theorem Gentle.ite {α : Type} {base : CStr} {c : Prop} [Decidable c] {a b : M α} (ha : Gentle base a) (hb : Gentle base b) :
    Gentle base (if c then a else b) := by
  split
  · exact ha
  · exact hb

theorem Spec.Clear.set {base : CStr} {fs : FS} (h : Clear fs base) (id : FileId) (hid : id ≠ .attr) (d : List Byte) :
    Clear (fs.set (fileKey base id) (.file d)) base := by
  refine ⟨?_, ?_, ?_⟩
  · intro d' hd
    rw [FS.set_other _ _ _ _ (resolve_ne_fileKey base id)] at hd
    exact h.way d' hd
  · rw [FS.set_other _ _ _ _ (fileKey_ne fun e => hid e.symm)]
    exact h.noOld
  · intro f hf
    by_cases he : id = .data f
    · subst he
      rw [FS.set_node] at hf
      cases hf
    · rw [FS.set_other _ _ _ _ (fileKey_ne fun e => he e.symm)] at hf
      exact h.data f hf

theorem openW_gentle (base : CStr) (id : FileId) (hid : id ≠ .attr) : Gentle base (openAFile base id .w) := by
  intro w hc
  apply wlp_of_wpc
  refine wpc_fopen_w _ _ _ _ ?_ (fun w' h1 _ => by rw [h1]; exact hc)
  intro b w' _ h1 h2 _
  cases b with
  | false => rw [h1 rfl]; exact hc
  | true => rw [(h2 rfl).1]; exact hc.set id hid _

theorem writeText_gentle (base : CStr) (id : FileId) (hid : id ≠ .attr) (bs : List Byte) : Gentle base (writeText (filePath base id) bs) := by
  intro w hc
  have hw : ∀ bs', Clear (w.fs.set (fileKey base id) (.file bs')) base := fun bs' => hc.set id hid _
  unfold writeText
  rw [wlp_bind]
  show wlp _ ({ w with clock := w.clock + 1 } : World) _ _
  rw [wlp_bind]
  show wlp _ ({ w with clock := w.clock + 1 } : World) _ _
  dsimp only
  split
  · exact hw _
  · exact hc
  · exact hw _
  · exact hw _
  · exact hw _

theorem flushHeader_gentle (bb : Block) : Gentle bb.basename (flushHeader bb) := by
  unfold flushHeader
  refine Gentle.ite (Gentle.bind (openW_gentle _ _ (by simp)) fun b => Gentle.ite ?_ (Gentle.pure _)) (Gentle.pure _)
  exact Gentle.bind (writeText_gentle _ _ (by simp) _) fun b => Gentle.ite (Gentle.pure _) (Gentle.pure _)

theorem writeAttrsV2_gentle (env : Env) (s : AttrSet) (base : CStr) : Gentle base (writeAttrsV2 env s base) := by
  unfold writeAttrsV2
  refine Gentle.bind (openW_gentle _ _ (by simp)) fun b => Gentle.ite ?_ (Gentle.pure _)
  refine Gentle.bind (Gentle.lift _) ?_
  rintro ⟨txt, s⟩
  exact Gentle.bind (writeText_gentle _ _ (by simp) _) fun b => Gentle.ite (Gentle.pure _) (Gentle.pure _)

theorem blockFlush_gentle (env : Env) (bb : Block) : Gentle bb.basename (blockFlush env bb) := by
  intro w hc
  unfold blockFlush
  rw [wlp_bind]
  have h0 := flushHeader_gentle bb w hc
  unfold wlp at h0 ⊢
  cases hr : flushHeader bb w with
  | ub => trivial
  | hang => trivial
  | crash w' => rw [hr] at h0; exact h0
  | ok r w1 =>
    rw [hr] at h0
    obtain ⟨hb, hs⟩ := flushHeader_base bb w w1 r hr
    obtain ⟨ok, bb'⟩ := r
    have : Gentle bb.basename (if (!ok) = true then pure ((-1 : Int), bb')
        else if bb'.attrset.dirty = true then do
          let (rc, s) ← writeAttrsV2 env bb'.attrset bb'.basename
          if rc ≠ 0 then pure (-1, { bb' with attrset := s })
          else pure (0, { bb' with attrset := { s with dirty := false } })
        else pure (0, bb')) := by
      refine Gentle.ite (Gentle.pure _) (Gentle.ite ?_ (Gentle.pure _))
      have hb : bb'.basename = bb.basename := hb
      rw [hb]
      refine Gentle.bind (writeAttrsV2_gentle _ _ _) ?_
      rintro ⟨rc, s⟩
      exact Gentle.ite (Gentle.pure _) (Gentle.pure _)
    exact this w1 h0

theorem truncFiles_gentle (base : CStr) : ∀ (n i : Nat), Gentle base (truncFiles base i n) := by
  intro n
  induction n with
  | zero => intro i; exact Gentle.pure _
  | succ n ih =>
    intro i
    unfold truncFiles
    exact Gentle.bind (openW_gentle _ _ (by simp)) fun b => Gentle.ite (ih _) (Gentle.pure _)

theorem createInternal_gentle (env : Env) (base : CStr) (dt : Option CStr) (nmemb : Int) (fsize : List Nat) :
    Gentle (strdup base) (createInternal env base dt nmemb fsize) := by
  unfold createInternal
  refine Gentle.ite (Gentle.pure _) ?_
  dsimp only
  refine Gentle.ite ?_ ?_
  · refine Gentle.bind (blockFlush_gentle env { basename := strdup base, .. }) ?_
    rintro ⟨rc, bb⟩
    exact Gentle.ite (Gentle.pure _) (Gentle.pure _)
  · refine Gentle.bind (blockFlush_gentle env { basename := strdup base, .. }) ?_
    rintro ⟨rc, bb⟩
    exact Gentle.ite (Gentle.pure _) (Gentle.pure _)

theorem blockFlush_base (env : Env) (bb : Block) (w : World) : wlp (blockFlush env bb) w (fun r _ => r.2.basename = bb.basename) (fun _ => True) := by
  unfold blockFlush
  rw [wlp_bind]
  unfold wlp
  cases hr : flushHeader bb w with
  | ub => trivial
  | hang => trivial
  | crash w' => trivial
  | ok r w1 =>
    obtain ⟨hb, _⟩ := flushHeader_base bb w w1 r hr
    obtain ⟨ok, bb'⟩ := r
    dsimp only at hb ⊢
    show wlp _ w1 _ _
    split
    · exact hb
    · split
      · rw [wlp_bind]
        unfold wlp
        cases writeAttrsV2 env bb'.attrset bb'.basename w1 with
        | ub => trivial
        | hang => trivial
        | crash w' => trivial
        | ok r w2 =>
          obtain ⟨rc, s⟩ := r
          dsimp only
          show wlp _ w2 _ _
          split
          · exact hb
          · exact hb
      · exact hb

theorem createInternal_base (env : Env) (base : CStr) (dt : Option CStr) (nmemb : Int) (fsize : List Nat) (w : World) :
    wlp (createInternal env base dt nmemb fsize) w (fun r _ => ∀ bb, r.2 = some bb → bb.basename = strdup base) (fun _ => True) := by
  have hfail : ∀ bb : Block, (none : Option Block) = some bb → bb.basename = strdup base := fun bb h => by cases h
  unfold createInternal
  split
  · exact hfail
  · dsimp only
    split
    · rw [wlp_bind]
      refine wlp_mono (blockFlush_base env { basename := strdup base, .. } w) ?_ (fun _ _ => trivial)
      rintro ⟨rc, b⟩ w1 h1
      dsimp only at h1 ⊢
      split
      · exact hfail
      · intro bb h
        injection h with h
        rw [← h]
        exact h1
    · rw [wlp_bind]
      refine wlp_mono (blockFlush_base env { basename := strdup base, .. } w) ?_ (fun _ _ => trivial)
      rintro ⟨rc, b⟩ w1 h1
      dsimp only at h1 ⊢
      split
      · exact hfail
      · intro bb h
        injection h with h
        rw [← h]
        exact h1

theorem blockCreate_gentle (env : Env) (base : CStr) (dt : Option CStr) (nmemb : Int) (fsize : List Nat) :
    Gentle (strdup base) (blockCreate env base dt nmemb fsize) := by
  intro w hc
  unfold blockCreate
  rw [wlp_bind]
  have h0 := createInternal_gentle env base dt nmemb fsize w hc
  have h1 := createInternal_base env base dt nmemb fsize w
  unfold wlp at h0 h1 ⊢
  cases hr : createInternal env base dt nmemb fsize w with
  | ub => trivial
  | hang => trivial
  | crash w' => rw [hr] at h0; exact h0
  | ok r w1 =>
    rw [hr] at h0 h1
    dsimp only at h1 ⊢
    show wlp _ w1 _ _
    split
    · rename_i b
      have : Gentle (strdup base) (do
          if ← truncFiles b.basename 0 b.nfile then pure ((0 : Int), some b) else pure (-1, none)) := by
        rw [h1 b rfl]
        exact Gentle.bind (truncFiles_gentle _ _ _) fun b => Gentle.ite (Gentle.pure _) (Gentle.pure _)
      exact this w1 h0
    · exact h0

theorem mkdirOk_gentle (base path : CStr) (h : (resolve path).length ≤ (resolve base).length) : Gentle base (mkdirOk path) := by
  have hne : ∀ id, fileKey base id ≠ resolve path := by
    intro id he
    have := congrArg List.length he
    rw [fileKey_eq, List.length_append, List.length_singleton] at this
    omega
  intro w hc
  apply wlp_of_wpc
  refine wpc_mono wpc_mkdirOk ?_ (fun w' h => by rw [h.2]; exact hc)
  rintro b w' ⟨_, h1, h2, _⟩
  refine ⟨?_, by rw [h2 _ (hne _)]; exact hc.noOld, fun f => by rw [h2 _ (hne _)]; exact hc.data f⟩
  intro d hd
  rcases h1 (resolve base) with h3 | ⟨_, h3⟩
  · rw [h3] at hd; exact hc.way d hd
  · rw [h3] at hd; cases hd

theorem mksubdirLoop_gentle (pathname todo : CStr) : ∀ done : CStr,
    Gentle (pathJoin pathname (done ++ todo)) (mksubdirLoop pathname done todo) := by
  induction todo with
  | nil => intro done; exact Gentle.pure _
  | cons c rest ih =>
    intro done
    have ih' := ih (done ++ [c])
    simp only [List.append_assoc, List.singleton_append] at ih'
    unfold mksubdirLoop
    split
    · rename_i hc
      subst hc
      have hdeep := resolve_deeper (pathJoin pathname done) rest
      rw [← pathJoin_append] at hdeep
      dsimp only
      exact Gentle.ite (Gentle.bind (mkdirOk_gentle _ _ hdeep) fun b => Gentle.ite ih' (Gentle.pure _)) ih'
    · exact ih'

theorem mksubdirR_gentle (pathname subdir : CStr) : Gentle (pathJoin pathname (strdup subdir)) (mksubdirR pathname subdir) := by
  unfold mksubdirR
  have h := mksubdirLoop_gentle pathname (strdup subdir) []
  rw [List.nil_append] at h
  exact Gentle.bind h fun b => Gentle.ite (Gentle.bind (mkdirOk_gentle _ _ (Nat.le_refl _)) fun b => Gentle.ite (Gentle.pure _) (Gentle.pure _))
    (Gentle.pure _)

/-- Making a block, also if it fails or is interrupted, leaves room for making it again. -/
theorem createBlock_gentle (env : Env) (bf name : CStr) (dt : Option CStr) (nmemb : Int) (fsize : List Nat)
    (hlen : (pathJoin bf name).length ≤ 8192) : Gentle (pathJoin bf name) (createBlock env bf name dt nmemb fsize) := by
  unfold createBlock
  have h1 := mksubdirR_gentle bf name
  rw [strdup_short (pathJoin_length hlen)] at h1
  have h2 := blockCreate_gentle env (pathJoin bf name) dt nmemb fsize
  rw [strdup_short hlen] at h2
  exact Gentle.bind h1 fun rc => Gentle.ite (Gentle.pure _) h2

end Verif
