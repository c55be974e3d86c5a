import Verif.Spec.Untouched
import Verif.Proof.CopyMay
import Verif.Model.LsTool
import Verif.Model.CreateTool
/-!
# What programs change on the disk, on any disk and whatever fails
-/

set_option autoImplicit false

namespace Verif

open Spec

/-- The disk changes only as `R` allows, and what is returned satisfies `P`. -/
def Yields {α : Type} (R : FS → FS → Prop) (P : α → Prop) (m : M α) : Prop :=
  ∀ w, wlp m w (fun a w' => R w.fs w'.fs ∧ P a) (fun w' => R w.fs w'.fs)

/-- Relations that steps can be put together with. -/
structure Chain (R : FS → FS → Prop) : Prop where
  refl : ∀ fs, R fs fs
  trans : ∀ {a b c}, R a b → R b c → R a c

theorem chain_eq : Chain (fun fs fs' : FS => fs' = fs) := ⟨fun _ => rfl, fun h h' => h'.trans h⟩

theorem chain_outside (base : CStr) : Chain (SameOutside base) := ⟨SameOutside.refl base, fun h h' => h.trans h'⟩

theorem chain_made (dst : CStr) : Chain (OnlyMade dst) := ⟨OnlyMade.refl dst, fun h h' => h.trans h'⟩

theorem chain_attrs (base : CStr) : Chain (OnlyAttrs base) := ⟨fun _ _ _ => rfl, fun h h' k hk => (h' k hk).trans (h k hk)⟩

theorem Yields.leaves {α : Type} {R : FS → FS → Prop} {P : α → Prop} {m : M α} (h : Yields R P m) : ChangesOnly R m := by
  intro w
  have := h w
  unfold wlp at this
  cases hm : m w <;> rw [hm] at this <;> first | exact this.1 | exact this | trivial

theorem Yields.keeps {α : Type} {P : α → Prop} {m : M α} (h : Yields (fun fs fs' => fs' = fs) P m) : Keeps m := by
  intro w
  have := h w
  unfold wlp at this
  cases hm : m w <;> rw [hm] at this <;> first | exact this.1 | exact this | trivial

variable {R : FS → FS → Prop} {α β : Type}

theorem Yields.of_keeps {m : M α} (hR : Chain R) (h : Keeps m) : Yields R (fun _ => True) m := by
  intro w
  have := h w
  unfold wlp
  cases hm : m w <;> rw [hm] at this <;> first | exact ⟨by rw [this]; exact hR.refl _, trivial⟩ | (show R _ _; rw [this]; exact hR.refl _) | trivial

theorem Yields.of_touches {base : CStr} {m : M α} (h : Touches base m) : Yields (SameOutside base) (fun _ => True) m :=
  fun w => wlp_mono (h w) (fun _ _ h => ⟨h, trivial⟩) (fun _ h => h)

theorem Yields.mono {P P' : α → Prop} {m : M α} (h : Yields R P m) (hp : ∀ a, P a → P' a) : Yields R P' m :=
  fun w => wlp_mono (h w) (fun _ _ h => ⟨h.1, hp _ h.2⟩) (fun _ h => h)

theorem Yields.wider {R' : FS → FS → Prop} {P : α → Prop} {m : M α} (h : Yields R P m) (hr : ∀ a b, R a b → R' a b) : Yields R' P m :=
  fun w => wlp_mono (h w) (fun _ _ h => ⟨hr _ _ h.1, h.2⟩) (fun _ h => hr _ _ h)

theorem Yields.and {P P' : α → Prop} {m : M α} (h : Yields R P m) (h' : Yields R P' m) : Yields R (fun a => P a ∧ P' a) m := by
  intro w
  have h1 := h w
  have h2 := h' w
  unfold wlp at *
  cases hm : m w <;> rw [hm] at h1 h2 <;> first | exact ⟨h1.1, h1.2, h2.2⟩ | exact h1 | trivial

/-- What is returned may be learned without looking at the disk. -/
theorem Yields.with {P : α → Prop} {R' : FS → FS → Prop} {Q : α → Prop} {m : M α} (h : Yields R P m) (h' : Yields R' Q m) :
    Yields R (fun a => P a ∧ Q a) m := by
  intro w
  have h1 := h w
  have h2 := h' w
  unfold wlp at *
  cases hm : m w <;> rw [hm] at h1 h2 <;> first | exact ⟨h1.1, h1.2, h2.2⟩ | exact h1 | trivial

theorem Yields.bind (hR : Chain R) {P : α → Prop} {Q : β → Prop} {m : M α} {f : α → M β} (h : Yields R P m)
    (hf : ∀ a, P a → Yields R Q (f a)) : Yields R Q (m >>= f) := by
  intro w
  rw [wlp_bind]
  refine wlp_mono (h w) ?_ (fun _ h => h)
  rintro a w1 ⟨h1, h2⟩
  exact wlp_mono (hf a h2 w1) (fun _ _ h3 => ⟨hR.trans h1 h3.1, h3.2⟩) (fun _ h3 => hR.trans h1 h3)

theorem Yields.pure (hR : Chain R) {P : α → Prop} {a : α} (h : P a) : Yields R P (pure a : M α) := fun w => ⟨hR.refl w.fs, h⟩

theorem Yields.ub {P : α → Prop} : Yields R P (M.ub : M α) := fun _ => trivial

theorem Yields.hang {P : α → Prop} : Yields R P (M.hang : M α) := fun _ => trivial

theorem Yields.lift (hR : Chain R) {P : α → Prop} {x : Option α} (h : ∀ a, x = some a → P a) : Yields R P (M.lift x) := by
  cases x with
  | none => exact Yields.ub
  | some a => exact Yields.pure hR (h a rfl)

theorem Yields.ite {P : α → Prop} {c : Prop} [Decidable c] {a b : M α} (ha : c → Yields R P a) (hb : ¬ c → Yields R P b) :
    Yields R P (if c then a else b) := by
  split
  · rename_i h; exact ha h
  · rename_i h; exact hb h

/-! ## Reading -/

theorem keeps_hang : Keeps (M.hang : M α) := fun _ => trivial

theorem keeps_statOk (path : CStr) : Keeps (statOk path) :=
  keeps_of_wpc fun _ => wpc_statOk (fun _ _ h _ => h) (fun _ h => h)

theorem keeps_bigFileOpen (path : CStr) : Keeps (bigFileOpen path) := by
  unfold bigFileOpen
  exact keeps_bind (keeps_statOk _) fun b => keeps_ite (keeps_pure _) (keeps_pure _)

theorem keeps_tick : Keeps tick := fun _ => rfl

theorem keeps_die : Keeps (die : M α) := fun _ => rfl

theorem keeps_scandir (sort : List CStr → List CStr) (path : CStr) : Keeps (scandir sort path) := by
  unfold scandir
  refine keeps_bind keeps_tick fun x => ?_
  split
  · exact keeps_die
  · exact keeps_pure _
  · exact keeps_bind keeps_getFS fun fs => keeps_ite (keeps_pure _) (keeps_pure _)

theorem keeps_statDir (path : CStr) : Keeps (statDir path) := by
  unfold statDir
  refine keeps_bind keeps_tick fun x => ?_
  split
  · exact keeps_die
  · exact keeps_ub
  · refine keeps_bind keeps_getFS fun fs => ?_
    split
    · exact keeps_ub
    · exact keeps_pure _
    · exact keeps_pure _

theorem keeps_readChunk (bb : Block) (f : Nat) (off fel : Int) (c : Nat) : Keeps (readChunk bb f off fel c) := by
  unfold readChunk
  refine keeps_bind (keeps_openR _ _) fun b => keeps_ite (keeps_ite (keeps_pure _) ?_) (keeps_pure _)
  exact keeps_bind (keeps_fread _ _ _) fun d => keeps_pure _

theorem keeps_readLoop (env : Env) (fel : Int) (cs : Nat) (ca : Arr) :
    ∀ (fuel : Nat) (bb : Block) (ptr : Ptr) (it : Iter) (n : Int) (mem : Mem), Keeps (readLoop env fel cs ca fuel bb ptr it n mem) := by
  intro fuel
  induction fuel with
  | zero => intro bb ptr it n mem; exact keeps_hang
  | succ fuel ih =>
    intro bb ptr it n mem
    unfold readLoop
    refine keeps_bind (keeps_lift _) fun e => keeps_ite (keeps_pure _) ?_
    refine keeps_bind (keeps_lift _) fun chunk => keeps_ite (keeps_pure _) ?_
    refine keeps_bind (keeps_readChunk _ _ _ _ _) fun d => ?_
    cases d with
    | none => exact keeps_pure _
    | some d =>
      refine keeps_bind (keeps_lift _) fun r => keeps_ite (keeps_pure _) ?_
      refine keeps_bind (keeps_lift _) ?_
      rintro ⟨rc, ptr'⟩
      exact keeps_ite (keeps_pure _) (ih _ _ _ _ _)

theorem keeps_blockRead (env : Env) (fuel : Nat) (bb : Block) (ptr : Ptr) (a : Arr) (mem : Mem) : Keeps (blockReadFuel env fuel bb ptr a mem) := by
  unfold blockReadFuel
  refine keeps_bind (keeps_lift _) ?_
  rintro ⟨nm, fel, cs⟩
  dsimp only
  refine keeps_bind (keeps_lift _) fun ca => ?_
  refine keeps_bind (keeps_lift _) fun fo => ?_
  exact keeps_ite (keeps_pure _) (keeps_readLoop _ _ _ _ _ _ _ _ _ _)

theorem keeps_readSimple (env : Env) (bb : Block) (start size : Int) (dt : Option CStr) (buf : Int) (mem : Mem) :
    Keeps (readSimple env bb start size dt buf mem) := by
  unfold readSimple
  dsimp only
  refine keeps_bind (keeps_lift _) ?_
  rintro ⟨rc, ptr⟩
  refine keeps_ite (keeps_pure _) (keeps_ite (keeps_pure _) ?_)
  refine keeps_bind (keeps_lift _) fun a => ?_
  refine keeps_bind (keeps_blockRead _ _ _ _ _ _) fun x => keeps_ite (keeps_pure _) (keeps_pure _)

/-! ## A block that was only opened has nothing to store -/

/-- Nothing to store. -/
def Block.Clean (bb : Block) : Prop := bb.dirty = false ∧ bb.attrset.dirty = false

theorem keeps_close {env : Env} {bb : Block} (h : bb.Clean) : Keeps (blockClose env bb) := by
  intro w
  rw [blockClose_clean h.1 h.2]

theorem Yields.of_Keeps {m : M α} (h : Keeps m) : Yields (fun fs fs' => fs' = fs) (fun _ => True) m := Yields.of_keeps chain_eq h

theorem readV2_yields (env : Env) (s : AttrSet) (base : CStr) :
    Yields (fun fs fs' => fs' = fs) (fun r => r.2.dirty = false) (readAttrsV2 env s base) := by
  unfold readAttrsV2
  dsimp only
  refine Yields.bind chain_eq (Yields.of_Keeps (keeps_openR _ _)) fun b _ => Yields.ite (fun _ => ?_) (fun _ => Yields.pure chain_eq rfl)
  refine Yields.bind chain_eq (Yields.of_Keeps keeps_getFS) fun fs _ => ?_
  refine Yields.bind chain_eq (Yields.of_Keeps (keeps_fread _ _ _)) fun txt _ => Yields.ite (fun _ => Yields.pure chain_eq rfl) (fun _ => ?_)
  refine Yields.bind chain_eq (Yields.of_Keeps (keeps_lift _)) ?_
  rintro ⟨rc, s'⟩ _
  exact Yields.pure chain_eq rfl

/-- Opening leaves the disk alone, and the handle is clean and knows its name. -/
theorem open_yields (env : Env) (base : CStr) :
    Yields (fun fs fs' => fs' = fs) (fun r => ∀ b, r.2 = some b → b.Clean ∧ b.basename = strdup base) (blockOpen env base) := by
  have hnone : ∀ b : Block, (none : Option Block) = some b → b.Clean ∧ b.basename = strdup base := fun _ h => by cases h
  unfold blockOpen
  dsimp only
  refine Yields.bind chain_eq (Yields.of_Keeps (keeps_readV1 _ _ _)) ?_
  rintro ⟨rc, s⟩ _
  refine Yields.ite (fun _ => Yields.pure chain_eq hnone) (fun _ => ?_)
  refine Yields.bind chain_eq (readV2_yields _ _ _) ?_
  rintro ⟨rc, s⟩ hs
  refine Yields.ite (fun _ => Yields.pure chain_eq hnone) (fun _ => ?_)
  refine Yields.ite (fun _ => ?_) (fun _ => Yields.pure chain_eq ?_)
  · refine Yields.bind chain_eq (Yields.of_Keeps (keeps_openR _ _)) fun b _ => Yields.ite (fun _ => ?_) (fun _ => Yields.pure chain_eq hnone)
    refine Yields.bind chain_eq (Yields.of_Keeps keeps_getFS) fun fs _ => ?_
    refine Yields.bind chain_eq (Yields.of_Keeps (keeps_fread _ _ _)) fun txt _ => ?_
    split
    · exact Yields.pure chain_eq hnone
    · exact Yields.ub
    · refine Yields.pure chain_eq ?_
      intro b h
      cases h
      exact ⟨⟨rfl, hs⟩, rfl⟩
  · intro b h
    cases h
    exact ⟨⟨rfl, hs⟩, rfl⟩

theorem openBlock_yields (env : Env) (bf name : CStr) :
    Yields (fun fs fs' => fs' = fs) (fun r => ∀ b, r.2 = some b → b.Clean ∧ b.basename = strdup (pathJoin bf name)) (openBlock env bf name) :=
  open_yields env _

/-! ## Writing -/

theorem writeLoop_yields (env : Env) (fel : Int) (cs : Nat) (ca : Arr) (base : CStr) :
    ∀ (fuel : Nat) (bb : Block) (ptr : Ptr) (it : Iter) (n : Int) (mem : Mem), bb.basename = base →
    Yields (SameOutside base) (fun x => x.bb.basename = base) (writeLoop env fel cs ca fuel bb ptr it n mem) := by
  intro fuel
  induction fuel with
  | zero => intro bb ptr it n mem _; exact Yields.hang
  | succ fuel ih =>
    intro bb ptr it n mem hb
    subst hb
    have hc := chain_outside bb.basename
    unfold writeLoop
    refine Yields.bind hc (Yields.of_touches (Touches.lift _)) fun e _ => Yields.ite (fun _ => Yields.pure hc rfl) (fun _ => ?_)
    refine Yields.bind hc (Yields.of_touches (Touches.lift _)) fun chunk _ => ?_
    refine Yields.bind hc (Yields.of_touches (Touches.lift _)) fun r _ => Yields.ite (fun _ => Yields.pure hc rfl) (fun _ => ?_)
    refine Yields.bind hc (Yields.of_touches (Touches.lift _)) fun old _ => ?_
    refine Yields.bind hc (Yields.of_touches (writeChunk_touches { bb with fchecksum := _ } _ _ _ _ _)) fun ok _ =>
      Yields.ite (fun _ => Yields.pure hc rfl) (fun _ => ?_)
    refine Yields.bind hc (Yields.of_touches (Touches.lift _)) ?_
    rintro ⟨rc, ptr'⟩ _
    exact Yields.ite (fun _ => Yields.pure hc rfl) (fun _ => ih _ _ _ _ _ rfl)

theorem blockWrite_yields (env : Env) (fuel : Nat) (bb : Block) (ptr : Ptr) (a : Arr) (mem : Mem) :
    Yields (SameOutside bb.basename) (fun x => x.bb.basename = bb.basename) (blockWriteFuel env fuel bb ptr a mem) := by
  have hc := chain_outside bb.basename
  unfold blockWriteFuel
  refine Yields.ite (fun _ => Yields.pure hc rfl) (fun _ => ?_)
  dsimp only
  refine Yields.bind hc (Yields.of_touches (Touches.lift _)) ?_
  rintro ⟨nm, fel, cs⟩ _
  dsimp only
  refine Yields.bind hc (Yields.of_touches (Touches.lift _)) fun ca _ => ?_
  refine Yields.bind hc (Yields.of_touches (Touches.lift _)) fun fo _ => ?_
  exact Yields.ite (fun _ => Yields.pure hc rfl) (fun _ => writeLoop_yields _ _ _ _ _ _ _ _ _ _ _ rfl)

theorem flush_yields (env : Env) (bb : Block) :
    Yields (SameOutside bb.basename) (fun r => r.2.basename = bb.basename) (blockFlush env bb) := by
  have hc := chain_outside bb.basename
  unfold blockFlush
  refine Yields.bind (P := fun r => r.2.basename = bb.basename ∧ r.2.attrset = bb.attrset) hc ?_ ?_
  · intro w
    have h := flushHeader_touches bb w
    unfold wlp at h ⊢
    cases hm : flushHeader bb w with
    | ok r w' => rw [hm] at h; exact ⟨h, flushHeader_base bb w w' r hm⟩
    | crash w' => rw [hm] at h; exact h
    | ub => trivial
    | hang => trivial
  · rintro ⟨ok, b⟩ ⟨h1, _⟩
    dsimp only at h1 ⊢
    refine Yields.ite (fun _ => Yields.pure hc h1) (fun _ => Yields.ite (fun _ => ?_) (fun _ => Yields.pure hc h1))
    rw [h1]
    refine Yields.bind hc (Yields.of_touches (writeAttrsV2_touches _ _ _)) ?_
    rintro ⟨rc, s⟩ _
    exact Yields.ite (fun _ => Yields.pure hc rfl) (fun _ => Yields.pure hc rfl)

theorem createInternal_yields (env : Env) (base : CStr) (dt : Option CStr) (nmemb : Int) (fsize : List Nat) :
    Yields (SameOutside (strdup base)) (fun r => ∀ b, r.2 = some b → b.basename = strdup base) (createInternal env base dt nmemb fsize) := by
  have hc := chain_outside (strdup base)
  have hnone : ∀ b : Block, (none : Option Block) = some b → b.basename = strdup base := fun _ h => by cases h
  unfold createInternal
  refine Yields.ite (fun _ => Yields.pure hc hnone) (fun _ => ?_)
  dsimp only
  refine Yields.ite (fun _ => ?_) (fun _ => ?_)
  all_goals
    refine Yields.bind hc (flush_yields env { basename := strdup base, .. }) ?_
    rintro ⟨rc, bb⟩ hb
    refine Yields.ite (fun _ => Yields.pure hc hnone) (fun _ => Yields.pure hc ?_)
    intro b h
    cases h
    exact hb

theorem create_yields (env : Env) (base : CStr) (dt : Option CStr) (nmemb : Int) (fsize : List Nat) :
    Yields (SameOutside (strdup base)) (fun r => ∀ b, r.2 = some b → b.basename = strdup base) (blockCreate env base dt nmemb fsize) := by
  have hc := chain_outside (strdup base)
  have hnone : ∀ b : Block, (none : Option Block) = some b → b.basename = strdup base := fun _ h => by cases h
  unfold blockCreate
  refine Yields.bind hc (createInternal_yields env base dt nmemb fsize) ?_
  rintro ⟨rc, o⟩ h
  dsimp only at h ⊢
  split
  · rename_i bb heq
    cases heq
    rw [h bb rfl]
    exact Yields.bind hc (Yields.of_touches (truncFiles_touches _ _ _)) fun ok _ =>
      Yields.ite (fun _ => Yields.pure hc h) (fun _ => Yields.pure hc hnone)
  · exact Yields.pure hc hnone

/-! ## Making directories -/

/-- Directories on the way to `dst`. -/
theorem mksubdir_made (dst base sub : CStr) (hlen : sub.length ≤ 8192) (hne : sub ≠ [] ∨ base ≠ [])
    (hp : baseKey base sub ++ names sub <+: resolve dst) : Yields (OnlyMade dst) (fun _ => True) (mksubdirR base sub) := by
  have key : ∀ {fs fs' : FS}, OnlyNewDirs fs fs' → (∀ k, fs'.node k ≠ fs.node k → ∃ t, t <+: names sub ∧ k = baseKey base sub ++ t) →
      OnlyMade dst fs fs' := by
    intro fs fs' h1 h2 k hk
    rcases h1 k with h | ⟨h, h'⟩
    · exact absurd h hk
    · obtain ⟨t, ht, rfl⟩ := h2 k hk
      exact Or.inr ⟨((List.prefix_append_right_inj _).mpr ht).trans hp, h, h'⟩
  intro w
  refine wlp_mono (wlp_of_wpc (mksubdirR_spec base sub w hlen hne)) ?_ ?_
  · rintro rc w' ⟨h1, _⟩
    exact ⟨key h1.only h1.where_, trivial⟩
  · rintro w' ⟨_, h1, _, h2⟩
    exact key h1 h2

theorem bigFileCreate_yields (dst path : CStr) (hne : path ≠ []) (hlen : path.length ≤ 8192) (hp : resolve path <+: resolve dst) :
    Yields (OnlyMade dst) (fun r => r.2 = path) (bigFileCreate path) := by
  unfold bigFileCreate
  refine Yields.bind (chain_made dst) (mksubdir_made dst [] path hlen (Or.inl hne) (by rw [baseKey_nil]; exact hp)) fun rc _ => ?_
  exact Yields.pure (chain_made dst) (strdup_short hlen)

theorem createBlock_yields (env : Env) (bf name : CStr) (dt : Option CStr) (nmemb : Int) (fsize : List Nat) (hbf : bf ≠ [])
    (hlen : (pathJoin bf name).length ≤ 8192) :
    Yields (OnlyMade (pathJoin bf name)) (fun r => ∀ b, r.2 = some b → b.basename = pathJoin bf name) (createBlock env bf name dt nmemb fsize) := by
  have hc := chain_made (pathJoin bf name)
  unfold createBlock
  refine Yields.bind hc (mksubdir_made _ bf name (pathJoin_length hlen) (Or.inr hbf) ?_) fun rc _ => ?_
  · unfold baseKey
    rw [if_neg hbf, resolve_join bf name hbf]
    exact List.prefix_rfl
  · refine Yields.ite (fun _ => Yields.pure hc (fun _ h => by cases h)) (fun _ => ?_)
    have := (create_yields env (pathJoin bf name) dt nmemb fsize).wider (fun _ _ h => OnlyMade.of_outside h)
    rw [strdup_short hlen] at this
    exact this

end Verif
