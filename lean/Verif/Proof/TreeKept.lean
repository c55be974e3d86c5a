import Verif.Proof.List
/-!
# Library calls keep the directory tree a tree
-/

set_option autoImplicit false

namespace Verif

open Spec

/-- Like `wpc`, but undefined behaviour and endless loops are not excluded. -/
def wlp {α : Type} (m : M α) (w : World) (Q : α → World → Prop) (C : World → Prop) : Prop :=
  match m w with
  | .ok a w' => Q a w'
  | .crash w' => C w'
  | _ => True

theorem wlp_bind {α β : Type} (m : M α) (f : α → M β) (w : World) (Q : β → World → Prop)
    (C : World → Prop) : wlp (m >>= f) w Q C ↔ wlp m w (fun a w' => wlp (f a) w' Q C) C := by
  show wlp (M.bind m f) w Q C ↔ _
  unfold wlp M.bind
  cases m w <;> simp

theorem wlp_pure {α : Type} (a : α) (w : World) (Q : α → World → Prop) (C : World → Prop) :
    wlp (pure a) w Q C ↔ Q a w := Iff.rfl

theorem wlp_lift {α : Type} (x : Option α) (w : World) (Q : α → World → Prop) (C : World → Prop)
    (h : ∀ a, Q a w) : wlp (M.lift x) w Q C := by
  cases x with
  | none => trivial
  | some a => exact h a

theorem wlp_of_wpc {α : Type} {m : M α} {w : World} {Q : α → World → Prop} {C : World → Prop}
    (h : wpc m w Q C) : wlp m w Q C := by
  unfold wpc at h
  unfold wlp
  cases hr : m w <;> rw [hr] at h <;> first | exact h | trivial

theorem wlp_mono {α : Type} {m : M α} {w : World} {Q Q' : α → World → Prop} {C C' : World → Prop}
    (h : wlp m w Q C) (hq : ∀ a w', Q a w' → Q' a w') (hc : ∀ w', C w' → C' w') : wlp m w Q' C' := by
  unfold wlp at *
  cases hr : m w <;> rw [hr] at h <;> first | exact hq _ _ h | exact hc _ h | trivial

theorem wlp_ok {α : Type} {m : M α} {w : World} {Q : α → World → Prop} {C : World → Prop}
    (h : wlp m w Q C) {a : α} {w' : World} (he : m w = .ok a w') : Q a w' := by
  unfold wlp at h; rw [he] at h; exact h

theorem Spec.NothingLost.refl (fs : FS) : NothingLost fs fs := fun _ => ⟨id, id⟩

theorem Spec.NothingLost.trans {a b c : FS} (h : NothingLost a b) (h' : NothingLost b c) : NothingLost a c :=
  fun k => ⟨fun x => (h' k).1 ((h k).1 x), fun x => (h' k).2 ((h k).2 x)⟩

theorem Spec.NothingLost.present {a b : FS} (h : NothingLost a b) {k : Key} (hs : (a.node k).isSome = true) :
    (b.node k).isSome = true := by
  cases hn : a.node k with
  | none => rw [hn] at hs; simp at hs
  | some n =>
    cases n with
    | dir => rw [(h k).1 hn]; rfl
    | file d => obtain ⟨d', hd⟩ := (h k).2 ⟨d, hn⟩; rw [hd]; rfl

/-- A later state: a tree in which nothing was lost. -/
def Later (fs fs' : FS) : Prop := TreeOk fs' ∧ NothingLost fs fs'

theorem Later.refl {fs : FS} (h : TreeOk fs) : Later fs fs := ⟨h, NothingLost.refl _⟩

theorem Later.trans {a b c : FS} (h : Later a b) (h' : Later b c) : Later a c := ⟨h'.1, h.2.trans h'.2⟩

/-- The call keeps the tree a tree and loses nothing, however it ends. -/
def KeepsTree {α : Type} (m : M α) : Prop :=
  ∀ w, TreeOk w.fs → wlp m w (fun _ w' => Later w.fs w'.fs) (fun w' => Later w.fs w'.fs)

theorem Spec.NothingLost.set {fs : FS} (k : Key) (n : Node)
    (hd : fs.node k = none ∨ (n = .dir ∧ fs.node k = some .dir) ∨ (∃ d d', n = .file d ∧ fs.node k = some (.file d'))) :
    NothingLost fs (fs.set k n) := by
  intro k'
  by_cases he : k' = k
  · subst he
    unfold IsFile
    rw [FS.set_node]
    rcases hd with h | ⟨rfl, h⟩ | ⟨d, d', rfl, h⟩
    · rw [h]; simp
    · rw [h]; simp
    · rw [h]; simp
  · unfold IsFile
    rw [FS.set_other _ _ _ _ he]
    exact ⟨id, id⟩

theorem KeepsTree.bind {α β : Type} {m : M α} {f : α → M β} (h : KeepsTree m) (h' : ∀ a, KeepsTree (f a)) :
    KeepsTree (m >>= f) := by
  intro w ht
  rw [wlp_bind]
  refine wlp_mono (h w ht) (fun a w' hw => ?_) (fun _ h => h)
  exact wlp_mono (h' a w' hw.1) (fun _ _ h2 => hw.trans h2) (fun _ h2 => hw.trans h2)

theorem KeepsTree.pure {α : Type} (a : α) : KeepsTree (pure a : M α) := fun _ h => Later.refl h

theorem KeepsTree.lift {α : Type} (x : Option α) : KeepsTree (M.lift x) := fun w h => wlp_lift x w _ _ fun _ => Later.refl h

theorem KeepsTree.ite {α : Type} {c : Prop} [Decidable c] {a b : M α} (ha : KeepsTree a) (hb : KeepsTree b) :
    KeepsTree (if c then a else b) := by
  split
  · exact ha
  · exact hb

theorem fopen_w_tree (path : CStr) (w : World) (ht : TreeOk w.fs) :
    wpc (fopen path .w) w (fun b w' => Later w.fs w'.fs ∧ (b = true → ∃ d, w'.fs.node (resolve path) = some (.file d)))
      (fun w' => Later w.fs w'.fs) := by
  unfold fopen
  rw [wpc_bind, wpc_tick]
  have hrest : wpc (do
      let fs ← getFS
      let k := resolve path
      match fs.node k with
      | some .dir => pure false
      | _ =>
        if fs.node k.dropLast = some .dir then do
          setFS (fs.set k (.file []))
          pure true
        else pure false) ({ w with clock := w.clock + 1 } : World)
      (fun b w' => Later w.fs w'.fs ∧ (b = true → ∃ d, w'.fs.node (resolve path) = some (.file d)))
      (fun w' => Later w.fs w'.fs) := by
    rw [wpc_bind, wpc_getFS]
    dsimp only
    split
    · exact ⟨Later.refl ht, by simp⟩
    · rename_i hnd
      split
      · rename_i hp
        rw [wpc_bind, wpc_setFS, wpc_pure]
        refine ⟨⟨ht.set _ _ (isKey_resolve path) ?_ hp (Or.inr hnd), NothingLost.set _ _ ?_⟩,
          fun _ => ⟨[], FS.set_node _ _ _⟩⟩
        · intro hc
          rw [hc] at hnd
          exact hnd ht.cwd
        · cases hn : w.fs.node (resolve path) with
          | none => exact Or.inl rfl
          | some n =>
            cases n with
            | dir => exact absurd hn hnd
            | file d => exact Or.inr (Or.inr ⟨[], d, rfl, rfl⟩)
      · exact ⟨Later.refl ht, by simp⟩
  cases hf : w.faults w.clock with
  | crash n => exact Later.refl ht
  | fail => exact ⟨Later.refl ht, by simp⟩
  | none => exact hrest
  | short n => exact hrest
  | silent n => exact hrest

theorem fopen_keeps (path : CStr) (mode : Mode) : KeepsTree (fopen path mode) := by
  intro w ht
  cases mode with
  | w => exact wlp_of_wpc (wpc_mono (fopen_w_tree path w ht) (fun _ _ h => h.1) (fun _ h => h))
  | r =>
    apply wlp_of_wpc
    apply wpc_fopen_r
    · intro b w' h _ _ _; rw [h]; exact Later.refl ht
    · intro w' h _; rw [h]; exact Later.refl ht
  | rplus =>
    apply wlp_of_wpc
    apply wpc_fopen_rplus
    · intro b w' h _ _ _; rw [h]; exact Later.refl ht
    · intro w' h _; rw [h]; exact Later.refl ht

theorem Spec.TreeOk.writeFile {fs : FS} (h : TreeOk fs) (k : Key) (off : Nat) (bs : List Byte) :
    TreeOk (fs.writeFile k off bs) := by
  unfold FS.writeFile
  split
  · rename_i d hd
    have hsome : ∀ k', ((fun k' => if k' = k then some (Node.file (writeAt d off bs)) else fs.node k') k').isSome =
        (fs.node k').isSome := by
      intro k'
      dsimp only
      split
      · rename_i he; subst he; rw [hd]; rfl
      · rfl
    have hdir : ∀ k', fs.node k' = some .dir →
        (fun k' => if k' = k then some (Node.file (writeAt d off bs)) else fs.node k') k' = some .dir := by
      intro k' hk
      dsimp only
      rw [if_neg]
      · exact hk
      · rintro rfl; rw [hd] at hk; simp at hk
    refine ⟨hdir _ h.cwd, hdir _ h.root, ?_, ?_, ?_, h.nodup⟩
    · intro k' hs hne
      exact hdir _ (h.parent k' (by rw [← hsome k']; exact hs) hne)
    · intro k' hs
      exact h.keys k' (by rw [← hsome k']; exact hs)
    · intro k' hs
      exact h.dom k' (by rw [← hsome k']; exact hs)
  · exact h

theorem writeFile_lost (fs : FS) (k : Key) (off : Nat) (bs : List Byte) :
    NothingLost fs (fs.writeFile k off bs) := by
  intro k'
  unfold FS.writeFile IsFile
  split
  · rename_i d hd
    dsimp only
    split
    · rename_i he
      subst he
      rw [hd]
      simp
    · exact ⟨id, id⟩
  · exact ⟨id, id⟩

theorem fwriteAt_keeps (path : CStr) (off : Nat) (bs : List Byte) : KeepsTree (fwriteAt path off bs) := by
  intro w ht
  apply wlp_of_wpc
  apply wpc_fwriteAt
  · intro n w' h _ _; rw [h]; exact ⟨ht.writeFile _ _ _, writeFile_lost _ _ _ _⟩
  · intro n w' h _; rw [h]; exact ⟨ht.writeFile _ _ _, writeFile_lost _ _ _ _⟩

theorem freadAt_keeps (path : CStr) (off len : Nat) : KeepsTree (freadAt path off len) := by
  intro w ht
  apply wlp_of_wpc
  apply wpc_freadAt
  · intro n w' h _ _; rw [h]; exact Later.refl ht
  · intro w' h _; rw [h]; exact Later.refl ht

/-- Text goes to a file that was opened before. -/
theorem writeText_tree (path : CStr) (bs : List Byte) (w : World) (ht : TreeOk w.fs)
    (hf : ∃ d, w.fs.node (resolve path) = some (.file d)) :
    wlp (writeText path bs) w (fun _ w' => Later w.fs w'.fs) (fun w' => Later w.fs w'.fs) := by
  obtain ⟨d, hd⟩ := hf
  have hset : ∀ bs', Later w.fs (w.fs.set (resolve path) (.file bs')) := by
    intro bs'
    have hne : resolve path ≠ [] := by
      intro hc; rw [hc, ht.cwd] at hd; simp at hd
    exact ⟨ht.set _ _ (isKey_resolve path) hne (ht.parent _ (by rw [hd]; rfl) hne) (Or.inr (by rw [hd]; simp)),
      NothingLost.set _ _ (Or.inr (Or.inr ⟨_, _, rfl, hd⟩))⟩
  unfold writeText
  rw [wlp_bind]
  show wlp (getFS >>= _) _ _ _
  rw [wlp_bind]
  show wlp _ ({ w with clock := w.clock + 1 } : World) _ _
  dsimp only
  split
  · exact hset _
  · exact Later.refl ht
  · exact hset _
  · exact hset _
  · exact hset _

/-- Opening a file for writing and filling it. -/
theorem openWrite_keeps {α : Type} (base : CStr) (id : FileId) (txt : List Byte) (a b c : M α)
    (ha : KeepsTree a) (hb : KeepsTree b) (hc : KeepsTree c) :
    KeepsTree (do
      if ← openAFile base id .w then
        if ← writeText (filePath base id) txt then a else b
      else c) := by
  intro w ht
  rw [wlp_bind]
  refine wlp_mono (wlp_of_wpc (fopen_w_tree (filePath base id) w ht)) ?_ (fun _ h => h)
  rintro r w1 ⟨h1, h2⟩
  cases r with
  | false => exact wlp_mono (hc w1 h1.1) (fun _ _ h => h1.trans h) (fun _ h => h1.trans h)
  | true =>
    simp only [if_true]
    rw [wlp_bind]
    refine wlp_mono (writeText_tree _ txt w1 h1.1 (h2 rfl)) ?_ (fun _ h => h1.trans h)
    intro r2 w2 h3
    have h4 := h1.trans h3
    cases r2 with
    | true => exact wlp_mono (ha w2 h4.1) (fun _ _ h => h4.trans h) (fun _ h => h4.trans h)
    | false => exact wlp_mono (hb w2 h4.1) (fun _ _ h => h4.trans h) (fun _ h => h4.trans h)

theorem mkdirOk_keeps (path : CStr) : KeepsTree (mkdirOk path) := by
  intro w ht
  refine wlp_of_wpc (wpc_mono (wpc_and (mkdirOk_tree ht) wpc_mkdirOk) ?_ ?_)
  · rintro b w' ⟨h1, _, h2, _⟩
    refine ⟨h1, fun k => ?_⟩
    rcases h2 k with h3 | ⟨h3, _⟩
    · unfold IsFile; rw [h3]; exact ⟨id, id⟩
    · unfold IsFile; rw [h3]; simp
  · rintro w' ⟨_, _, h2⟩
    rw [h2]; exact Later.refl ht

theorem mksubdirLoop_keeps (base : CStr) : ∀ (todo done : CStr), KeepsTree (mksubdirLoop base done todo) := by
  intro todo
  induction todo with
  | nil => intro done; exact KeepsTree.pure _
  | cons c rest ih =>
    intro done
    unfold mksubdirLoop
    apply KeepsTree.ite
    · dsimp only
      apply KeepsTree.ite
      · exact KeepsTree.bind (mkdirOk_keeps _) fun b => KeepsTree.ite (ih _) (KeepsTree.pure _)
      · exact ih _
    · exact ih _

theorem mksubdirR_keeps (base sub : CStr) : KeepsTree (mksubdirR base sub) := by
  unfold mksubdirR
  exact KeepsTree.bind (mksubdirLoop_keeps _ _ _) fun b =>
    KeepsTree.ite (KeepsTree.bind (mkdirOk_keeps _) fun b => KeepsTree.ite (KeepsTree.pure _) (KeepsTree.pure _))
      (KeepsTree.pure _)

theorem flushHeader_keeps (bb : Block) : KeepsTree (flushHeader bb) := by
  unfold flushHeader
  exact KeepsTree.ite (openWrite_keeps _ _ _ _ _ _ (KeepsTree.pure _) (KeepsTree.pure _) (KeepsTree.pure _))
    (KeepsTree.pure _)

theorem writeAttrsV2_keeps (env : Env) (s : AttrSet) (base : CStr) : KeepsTree (writeAttrsV2 env s base) := by
  unfold writeAttrsV2
  intro w ht
  rw [wlp_bind]
  refine wlp_mono (wlp_of_wpc (fopen_w_tree (filePath base .attrV2) w ht)) ?_ (fun _ h => h)
  rintro r w1 ⟨h1, h2⟩
  cases r with
  | false => exact h1
  | true =>
    simp only [if_true]
    rw [wlp_bind]
    apply wlp_lift
    rintro ⟨txt, s'⟩
    dsimp only
    rw [wlp_bind]
    refine wlp_mono (writeText_tree _ txt w1 h1.1 (h2 rfl)) ?_ (fun _ h => h1.trans h)
    intro r2 w2 h3
    cases r2 <;> exact h1.trans h3

theorem blockFlush_keeps (env : Env) (bb : Block) : KeepsTree (blockFlush env bb) := by
  unfold blockFlush
  refine KeepsTree.bind (flushHeader_keeps bb) ?_
  rintro ⟨ok, bb'⟩
  dsimp only
  refine KeepsTree.ite (KeepsTree.pure _) (KeepsTree.ite ?_ (KeepsTree.pure _))
  refine KeepsTree.bind (writeAttrsV2_keeps _ _ _) ?_
  rintro ⟨rc, s⟩
  exact KeepsTree.ite (KeepsTree.pure _) (KeepsTree.pure _)

theorem truncFiles_keeps (base : CStr) : ∀ (n i : Nat), KeepsTree (truncFiles base i n) := by
  intro n
  induction n with
  | zero => intro i; exact KeepsTree.pure _
  | succ n ih =>
    intro i
    unfold truncFiles
    exact KeepsTree.bind (fopen_keeps _ _) fun b => KeepsTree.ite (ih _) (KeepsTree.pure _)

theorem createInternal_keeps (env : Env) (base : CStr) (dt : Option CStr) (nmemb : Int) (fsize : List Nat) :
    KeepsTree (createInternal env base dt nmemb fsize) := by
  unfold createInternal
  refine KeepsTree.ite (KeepsTree.pure _) ?_
  dsimp only
  refine KeepsTree.ite ?_ ?_
  · refine KeepsTree.bind (blockFlush_keeps _ _) ?_
    rintro ⟨rc, bb⟩
    exact KeepsTree.ite (KeepsTree.pure _) (KeepsTree.pure _)
  · refine KeepsTree.bind (blockFlush_keeps _ _) ?_
    rintro ⟨rc, bb⟩
    exact KeepsTree.ite (KeepsTree.pure _) (KeepsTree.pure _)

theorem blockCreate_keeps (env : Env) (base : CStr) (dt : Option CStr) (nmemb : Int) (fsize : List Nat) :
    KeepsTree (blockCreate env base dt nmemb fsize) := by
  unfold blockCreate
  refine KeepsTree.bind (createInternal_keeps _ _ _ _ _) ?_
  intro r
  split
  · exact KeepsTree.bind (truncFiles_keeps _ _ _) fun b => KeepsTree.ite (KeepsTree.pure _) (KeepsTree.pure _)
  · exact KeepsTree.pure _

theorem createBlock_keeps (env : Env) (bf name : CStr) (dt : Option CStr) (nmemb : Int) (fsize : List Nat) :
    KeepsTree (createBlock env bf name dt nmemb fsize) := by
  unfold createBlock
  exact KeepsTree.bind (mksubdirR_keeps _ _) fun rc => KeepsTree.ite (KeepsTree.pure _) (blockCreate_keeps _ _ _ _ _)

theorem blockGrow_keeps (bb : Block) (g : List Nat) : KeepsTree (blockGrow bb g) := by
  unfold blockGrow
  exact KeepsTree.bind (truncFiles_keeps _ _ _) fun b => KeepsTree.ite (KeepsTree.pure _) (KeepsTree.pure _)

theorem bigFileCreate_keeps (p : CStr) : KeepsTree (bigFileCreate p) :=
  KeepsTree.bind (mksubdirR_keeps _ _) fun _ => KeepsTree.pure _

theorem blockClose_keeps (env : Env) (bb : Block) : KeepsTree (blockClose env bb) := by
  unfold blockClose
  refine KeepsTree.bind (blockFlush_keeps _ _) ?_
  rintro ⟨rc, b⟩
  exact KeepsTree.pure _

theorem writeChunk_keeps (bb : Block) (f : Nat) (off fel : Int) (c : Nat) (d : List Byte) :
    KeepsTree (writeChunk bb f off fel c d) := by
  unfold writeChunk
  refine KeepsTree.bind (fopen_keeps _ _) fun b => KeepsTree.ite (KeepsTree.ite (KeepsTree.pure _) ?_) (KeepsTree.pure _)
  exact KeepsTree.bind (fwriteAt_keeps _ _ _) fun n => KeepsTree.pure _

theorem KeepsTree.hang {α : Type} : KeepsTree (M.hang : M α) := fun _ _ => trivial

theorem writeLoop_keeps (env : Env) (fel : Int) (cs : Nat) (ca : Arr) :
    ∀ (fuel : Nat) (bb : Block) (ptr : Ptr) (it : Iter) (n : Int) (mem : Mem),
    KeepsTree (writeLoop env fel cs ca fuel bb ptr it n mem) := by
  intro fuel
  induction fuel with
  | zero => intro bb ptr it n mem; exact KeepsTree.hang
  | succ fuel ih =>
    intro bb ptr it n mem
    unfold writeLoop
    refine KeepsTree.bind (KeepsTree.lift _) fun e => KeepsTree.ite (KeepsTree.pure _) ?_
    refine KeepsTree.bind (KeepsTree.lift _) fun chunk => ?_
    refine KeepsTree.bind (KeepsTree.lift _) fun r => KeepsTree.ite (KeepsTree.pure _) ?_
    refine KeepsTree.bind (KeepsTree.lift _) fun old => ?_
    refine KeepsTree.bind (writeChunk_keeps _ _ _ _ _ _) fun ok => KeepsTree.ite (KeepsTree.pure _) ?_
    refine KeepsTree.bind (KeepsTree.lift _) ?_
    rintro ⟨rc, ptr'⟩
    exact KeepsTree.ite (KeepsTree.pure _) (ih _ _ _ _ _)

theorem blockWrite_keeps (env : Env) (fuel : Nat) (bb : Block) (ptr : Ptr) (a : Arr) (mem : Mem) :
    KeepsTree (blockWriteFuel env fuel bb ptr a mem) := by
  unfold blockWriteFuel
  refine KeepsTree.ite (KeepsTree.pure _) ?_
  dsimp only
  refine KeepsTree.bind (KeepsTree.lift _) ?_
  rintro ⟨nm, fel, cs⟩
  dsimp only
  refine KeepsTree.bind (KeepsTree.lift _) fun ca => ?_
  refine KeepsTree.bind (KeepsTree.lift _) fun fo => ?_
  exact KeepsTree.ite (KeepsTree.pure _) (writeLoop_keeps _ _ _ _ _ _ _ _ _ _)

theorem readChunk_keeps (bb : Block) (f : Nat) (off fel : Int) (c : Nat) :
    KeepsTree (readChunk bb f off fel c) := by
  unfold readChunk
  refine KeepsTree.bind (fopen_keeps _ _) fun b => KeepsTree.ite (KeepsTree.ite (KeepsTree.pure _) ?_) (KeepsTree.pure _)
  exact KeepsTree.bind (freadAt_keeps _ _ _) fun n => KeepsTree.pure _

theorem readLoop_keeps (env : Env) (fel : Int) (cs : Nat) (ca : Arr) :
    ∀ (fuel : Nat) (bb : Block) (ptr : Ptr) (it : Iter) (n : Int) (mem : Mem),
    KeepsTree (readLoop env fel cs ca fuel bb ptr it n mem) := by
  intro fuel
  induction fuel with
  | zero => intro bb ptr it n mem; exact KeepsTree.hang
  | succ fuel ih =>
    intro bb ptr it n mem
    unfold readLoop
    refine KeepsTree.bind (KeepsTree.lift _) fun e => KeepsTree.ite (KeepsTree.pure _) ?_
    refine KeepsTree.bind (KeepsTree.lift _) fun chunk => KeepsTree.ite (KeepsTree.pure _) ?_
    refine KeepsTree.bind (readChunk_keeps _ _ _ _ _) fun d => ?_
    split
    · exact KeepsTree.pure _
    · refine KeepsTree.bind (KeepsTree.lift _) fun r => KeepsTree.ite (KeepsTree.pure _) ?_
      refine KeepsTree.bind (KeepsTree.lift _) ?_
      rintro ⟨rc, ptr'⟩
      exact KeepsTree.ite (KeepsTree.pure _) (ih _ _ _ _ _)

theorem blockRead_keeps (env : Env) (fuel : Nat) (bb : Block) (ptr : Ptr) (a : Arr) (mem : Mem) :
    KeepsTree (blockReadFuel env fuel bb ptr a mem) := by
  unfold blockReadFuel
  refine KeepsTree.bind (KeepsTree.lift _) ?_
  rintro ⟨nm, fel, cs⟩
  dsimp only
  refine KeepsTree.bind (KeepsTree.lift _) fun ca => ?_
  refine KeepsTree.bind (KeepsTree.lift _) fun fo => ?_
  exact KeepsTree.ite (KeepsTree.pure _) (readLoop_keeps _ _ _ _ _ _ _ _ _ _)


theorem KeepsTree.ub {α : Type} : KeepsTree (M.ub : M α) := fun _ _ => trivial

theorem getFS_keeps : KeepsTree getFS := fun w h => wlp_of_wpc (by
  simpa [wpc_getFS] using Later.refl h)

theorem readAttrsV1_keeps (env : Env) (s : AttrSet) (base : CStr) : KeepsTree (readAttrsV1 env s base) := by
  unfold readAttrsV1
  refine KeepsTree.bind (fopen_keeps _ _) fun b => KeepsTree.ite ?_ (KeepsTree.pure _)
  refine KeepsTree.bind getFS_keeps fun fs => KeepsTree.bind (freadAt_keeps _ _ _) fun bs => ?_
  refine KeepsTree.bind (KeepsTree.lift _) ?_
  rintro ⟨rc, s⟩
  exact KeepsTree.pure _

theorem readAttrsV2_keeps (env : Env) (s : AttrSet) (base : CStr) : KeepsTree (readAttrsV2 env s base) := by
  unfold readAttrsV2
  refine KeepsTree.bind (fopen_keeps _ _) fun b => KeepsTree.ite ?_ (KeepsTree.pure _)
  refine KeepsTree.bind getFS_keeps fun fs => KeepsTree.bind (freadAt_keeps _ _ _) fun bs => ?_
  refine KeepsTree.ite (KeepsTree.pure _) (KeepsTree.bind (KeepsTree.lift _) ?_)
  rintro ⟨rc, s⟩
  exact KeepsTree.pure _

theorem blockOpen_keeps (env : Env) (base : CStr) : KeepsTree (blockOpen env base) := by
  unfold blockOpen
  refine KeepsTree.bind (readAttrsV1_keeps _ _ _) ?_
  rintro ⟨rc, s⟩
  refine KeepsTree.ite (KeepsTree.pure _) (KeepsTree.bind (readAttrsV2_keeps _ _ _) ?_)
  rintro ⟨rc, s⟩
  refine KeepsTree.ite (KeepsTree.pure _) (KeepsTree.ite ?_ (KeepsTree.pure _))
  refine KeepsTree.bind (fopen_keeps _ _) fun b => KeepsTree.ite ?_ (KeepsTree.pure _)
  refine KeepsTree.bind getFS_keeps fun fs => KeepsTree.bind (freadAt_keeps _ _ _) fun bs => ?_
  split
  · exact KeepsTree.pure _
  · exact KeepsTree.ub
  · exact KeepsTree.pure _

end Verif
