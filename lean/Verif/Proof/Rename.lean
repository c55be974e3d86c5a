import Verif.Model.MpiBlock
import Verif.Proof.Tree
/-!
# Functions that use the path of a block only to find its files
-/

set_option autoImplicit false

namespace Verif

/-- Apply a function to the result. -/
def M.mapRes {α β : Type} (f : α → β) (m : M α) : M β := fun w => match m w with
  | .ok a w' => .ok (f a) w'
  | .crash w' => .crash w'
  | .ub => .ub
  | .hang => .hang

theorem mapRes_bind {α β γ : Type} (f : β → γ) (m : M α) (k : α → M β) :
    M.mapRes f (m >>= k) = m >>= fun x => M.mapRes f (k x) := by
  funext w
  show M.mapRes f (M.bind m k) w = M.bind m _ w
  unfold M.mapRes M.bind
  cases m w <;> rfl

theorem mapRes_pure {α β : Type} (f : α → β) (a : α) : M.mapRes f (pure a : M α) = pure (f a) := rfl

theorem mapRes_ite {α β : Type} (f : α → β) (c : Prop) [Decidable c] (x y : M α) :
    M.mapRes f (if c then x else y) = if c then M.mapRes f x else M.mapRes f y := by
  split <;> rfl

theorem bind_mapRes {α β γ : Type} (f : α → β) (m : M α) (k : β → M γ) :
    (M.mapRes f m >>= k) = m >>= fun x => k (f x) := by
  funext w
  show M.bind (M.mapRes f m) k w = M.bind m _ w
  unfold M.mapRes M.bind
  dsimp only
  cases m w <;> rfl

theorem fopen_congr {p q : CStr} (h : resolve p = resolve q) (m : Mode) : fopen p m = fopen q m := by
  unfold fopen; rw [h]

theorem freadAt_congr {p q : CStr} (h : resolve p = resolve q) (off len : Nat) : freadAt p off len = freadAt q off len := by
  unfold freadAt; rw [h]

theorem writeText_congr {p q : CStr} (h : resolve p = resolve q) (bs : List Byte) : writeText p bs = writeText q bs := by
  unfold writeText; rw [h]

section
variable {a b : CStr}

theorem filePath_congr (h : resolve a = resolve b) (id : FileId) : resolve (filePath a id) = resolve (filePath b id) := by
  have h1 := fileKey_eq a id
  have h2 := fileKey_eq b id
  unfold fileKey at h1 h2
  rw [h1, h2, h]

theorem openAFile_congr (h : resolve a = resolve b) (id : FileId) (m : Mode) : openAFile a id m = openAFile b id m :=
  fopen_congr (filePath_congr h id) m

theorem readAttrsV1_congr (h : resolve a = resolve b) (env : Env) (s : AttrSet) : readAttrsV1 env s a = readAttrsV1 env s b := by
  unfold readAttrsV1
  rw [openAFile_congr h, filePath_congr h]
  simp only [freadAt_congr (filePath_congr h _)]

theorem readAttrsV2_congr (h : resolve a = resolve b) (env : Env) (s : AttrSet) : readAttrsV2 env s a = readAttrsV2 env s b := by
  unfold readAttrsV2
  rw [openAFile_congr h, filePath_congr h]
  simp only [freadAt_congr (filePath_congr h _)]

theorem writeAttrsV2_congr (h : resolve a = resolve b) (env : Env) (s : AttrSet) : writeAttrsV2 env s a = writeAttrsV2 env s b := by
  unfold writeAttrsV2
  rw [openAFile_congr h]
  simp only [writeText_congr (filePath_congr h _)]

/-- The same handle under another name. -/
def Block.named (bb : Block) (name : CStr) : Block := { bb with basename := name }

theorem blockOpen_named (h : resolve a = resolve b) (ha : a.length ≤ 8192) (hb : b.length ≤ 8192) (hm : isMeta a = isMeta b)
    (env : Env) : blockOpen env a = M.mapRes (fun x => (x.1, x.2.map (·.named a))) (blockOpen env b) := by
  have ea : strdup a = a := List.take_of_length_le ha
  have eb : strdup b = b := List.take_of_length_le hb
  unfold blockOpen
  rw [ea, eb]
  dsimp only
  rw [readAttrsV1_congr h, mapRes_bind]
  congr 1
  funext x
  rw [mapRes_ite]
  split
  · rfl
  · rw [readAttrsV2_congr h, mapRes_bind]
    congr 1
    funext y
    rw [mapRes_ite]
    split
    · rfl
    · rw [hm, mapRes_ite]
      split
      · rw [openAFile_congr h, mapRes_bind]
        congr 1
        funext z
        rw [mapRes_ite]
        split
        · rw [filePath_congr h, mapRes_bind]
          congr 1
          funext fs
          rw [mapRes_bind, freadAt_congr (filePath_congr h _)]
          congr 1
          funext txt
          cases parseHeader txt <;> rfl
        · rfl
      · rfl

theorem flushHeader_named (h : resolve a = resolve b) {bb : Block} (hb : bb.basename = b) :
    flushHeader (bb.named a) = M.mapRes (fun x => (x.1, x.2.named a)) (flushHeader bb) := by
  unfold flushHeader
  show (if bb.dirty = true then _ else _) = _
  rw [mapRes_ite]
  split
  · show (do if ← openAFile a .header .w then _ else _) = _
    rw [mapRes_bind, openAFile_congr h, hb]
    congr 1
    funext x
    rw [mapRes_ite]
    split
    · rw [mapRes_bind]
      show (writeText (filePath a .header) (headerText bb) >>= _) = _
      rw [writeText_congr (filePath_congr h _)]
      congr 1
      funext y
      rw [mapRes_ite]
      split <;> rfl
    · rfl
  · rfl

/-- The base name does not change in a flush. -/
theorem flushHeader_basename {bb bb' : Block} {ok : Bool} {w w' : World} (h : flushHeader bb w = .ok (ok, bb') w') :
    bb'.basename = bb.basename := by
  unfold flushHeader at h
  split at h
  · change M.bind _ _ w = _ at h
    unfold M.bind at h
    split at h
    · dsimp only at h
      split at h
      · change M.bind _ _ _ = _ at h
        unfold M.bind at h
        split at h
        · dsimp only at h
          split at h <;> · injection h with h _; injection h with _ h; subst h; rfl
        all_goals cases h
      · injection h with h _; injection h with _ h; subst h; rfl
    all_goals cases h
  · injection h with h _; injection h with _ h; subst h; rfl

theorem bind_congr_ok {α β : Type} {m : M α} {f g : α → M β} (h : ∀ x w w', m w = .ok x w' → f x = g x) :
    (m >>= f) = m >>= g := by
  funext w
  show M.bind m f w = M.bind m g w
  unfold M.bind
  cases e : m w with
  | ok x w' => exact congrFun (h x w w' e) w'
  | crash _ => rfl
  | ub => rfl
  | hang => rfl

theorem blockFlush_named (h : resolve a = resolve b) {bb : Block} (hb : bb.basename = b) (env : Env) :
    blockFlush env (bb.named a) = M.mapRes (fun x => (x.1, x.2.named a)) (blockFlush env bb) := by
  unfold blockFlush
  rw [flushHeader_named h hb, bind_mapRes, mapRes_bind]
  apply bind_congr_ok
  rintro ⟨ok, bb1⟩ w w' e
  have hb1 := (flushHeader_basename e).trans hb
  dsimp only
  rw [mapRes_ite]
  split
  · rfl
  · rw [mapRes_ite]
    show (if bb1.attrset.dirty = true then _ else _) = _
    by_cases hd : bb1.attrset.dirty = true
    · rw [if_pos hd, if_pos hd]
      show (writeAttrsV2 env bb1.attrset a >>= _) = _
      rw [mapRes_bind, writeAttrsV2_congr h, hb1]
      congr 1
      funext x
      rw [mapRes_ite]
      split <;> rfl
    · rw [if_neg hd, if_neg hd]
      rfl

theorem createInternal_named (h : resolve a = resolve b) (ha : a.length ≤ 8192) (hb : b.length ≤ 8192) (hm : isMeta a = isMeta b)
    (hk : hasBlank a = hasBlank b) (env : Env) (dt : Option CStr) (nmemb : Int) (fsize : List Nat) :
    createInternal env a dt nmemb fsize =
      M.mapRes (fun x => (x.1, x.2.map (·.named a))) (createInternal env b dt nmemb fsize) := by
  have ea : strdup a = a := List.take_of_length_le ha
  have eb : strdup b = b := List.take_of_length_le hb
  have hfl : ∀ bb : Block, bb.basename = b →
      (blockFlush env (bb.named a) >>= fun x => if x.1 ≠ 0 then pure (-1, none) else pure ((0 : Int), some { x.2 with dirty := false })) =
      M.mapRes (fun x => (x.1, x.2.map (·.named a))) (blockFlush env bb >>= fun x => if x.1 ≠ 0 then pure (-1, none)
        else pure ((0 : Int), some { x.2 with dirty := false })) := by
    intro bb hbb
    rw [blockFlush_named h hbb, bind_mapRes, mapRes_bind]
    congr 1
    funext x
    rw [mapRes_ite]
    split <;> rfl
  unfold createInternal
  rw [hk, mapRes_ite]
  split
  · rfl
  · rw [ea, eb]
    dsimp only
    rw [hm, mapRes_ite]
    split
    · cases dt with
      | none => exact hfl ⟨_, _, b, _, _, _, _, _, _, _⟩ rfl
      | some d => exact hfl ⟨_, _, b, _, _, _, _, _, _, _⟩ rfl
    · exact hfl ⟨_, _, b, _, _, _, _, _, _, _⟩ rfl

end

theorem resolve_mpiPath (bf name : CStr) (h : bf ≠ []) : resolve (mpiPath bf name) = resolve (pathJoin bf name) := by
  rw [resolve_join bf name h]
  unfold mpiPath
  rw [resolve_names, resolve_names bf, isAbs_append _ _ h, names_append, names_slash, List.append_assoc]

theorem isMeta_mpiPath (bf name : CStr) : isMeta (mpiPath bf name) = false := by
  have e : mpiPath bf name = (bf ++ 47 :: name) ++ [47] := by simp [mpiPath]
  rw [e]
  unfold isMeta endswith
  rw [List.reverse_append]
  have h1 : ((bf ++ 47 :: name) ++ [47] == b!".") = false := by
    rw [beq_eq_false_iff_ne]
    intro h
    have := congrArg List.length h
    simp at this
    omega
  rw [h1]
  rfl

theorem hasBlank_mpiPath (bf name : CStr) (h : bf ≠ []) : hasBlank (mpiPath bf name) = hasBlank (pathJoin bf name) := by
  unfold mpiPath pathJoin hasBlank
  rw [if_neg (by simpa using h)]
  split <;> simp

end Verif
