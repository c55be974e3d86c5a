import Verif.Proof.Flush
/-!
# Opening
-/

set_option autoImplicit false

namespace Verif

open Spec

/-! ## Opening changes nothing -/

theorem keeps_pure {α : Type} (a : α) : Keeps (pure a : M α) := fun _ => rfl

theorem keeps_ub {α : Type} : Keeps (M.ub : M α) := fun _ => trivial

theorem keeps_lift {α : Type} (x : Option α) : Keeps (M.lift x) := by
  cases x
  · exact keeps_ub
  · exact keeps_pure _

theorem keeps_bind {α β : Type} {m : M α} {f : α → M β} (h : Keeps m) (hf : ∀ a, Keeps (f a)) : Keeps (m >>= f) := by
  intro w
  show (match M.bind m f w with
    | .ok _ w' => w'.fs = w.fs
    | .crash w' => w'.fs = w.fs
    | _ => True)
  have h1 := h w
  unfold M.bind
  cases hm : m w with
  | ok a w1 =>
    rw [hm] at h1
    have h2 := hf a w1
    simp only at h1 ⊢
    cases hfa : f a w1 with
    | ok b w2 => rw [hfa] at h2; exact h2.trans h1
    | crash w2 => rw [hfa] at h2; exact h2.trans h1
    | ub => trivial
    | hang => trivial
  | crash w1 => rw [hm] at h1; exact h1
  | ub => trivial
  | hang => trivial

theorem keeps_ite {α : Type} {p : Prop} [Decidable p] {a b : M α} (ha : Keeps a) (hb : Keeps b) :
    Keeps (if p then a else b) := by
  split
  · exact ha
  · exact hb

theorem keeps_getFS : Keeps getFS := fun _ => rfl

theorem keeps_of_wpc {α : Type} {m : M α} (h : ∀ w, wpc m w (fun _ w' => w'.fs = w.fs) (fun w' => w'.fs = w.fs)) :
    Keeps m := by
  intro w
  have := h w
  unfold wpc at this
  cases hm : m w <;> rw [hm] at this <;> first | exact this | trivial

theorem keeps_openR (base : CStr) (id : FileId) : Keeps (openAFile base id .r) := by
  apply keeps_of_wpc
  intro w
  unfold openAFile
  apply wpc_fopen_r
  · intro _ _ h _ _ _; exact h
  · intro _ h _; exact h

theorem keeps_fread (path : CStr) (off len : Nat) : Keeps (freadAt path off len) := by
  apply keeps_of_wpc
  intro w
  apply wpc_freadAt
  · intro _ _ h _ _; exact h
  · intro _ h _; exact h

theorem keeps_readV1 (env : Env) (s : AttrSet) (base : CStr) : Keeps (readAttrsV1 env s base) := by
  unfold readAttrsV1
  refine keeps_bind (keeps_openR _ _) fun b => ?_
  refine keeps_ite ?_ (keeps_pure _)
  refine keeps_bind keeps_getFS fun fs => ?_
  refine keeps_bind (keeps_fread _ _ _) fun bs => ?_
  refine keeps_bind (keeps_lift _) fun r => ?_
  exact keeps_pure _

theorem keeps_readV2 (env : Env) (s : AttrSet) (base : CStr) : Keeps (readAttrsV2 env s base) := by
  unfold readAttrsV2
  refine keeps_bind (keeps_openR _ _) fun b => ?_
  refine keeps_ite ?_ (keeps_pure _)
  refine keeps_bind keeps_getFS fun fs => ?_
  refine keeps_bind (keeps_fread _ _ _) fun bs => ?_
  refine keeps_ite (keeps_pure _) ?_
  refine keeps_bind (keeps_lift _) fun r => ?_
  exact keeps_pure _

theorem keeps_blockOpen (env : Env) (base : CStr) : Keeps (blockOpen env base) := by
  unfold blockOpen
  refine keeps_bind (keeps_readV1 _ _ _) fun r => ?_
  refine keeps_ite (keeps_pure _) ?_
  refine keeps_bind (keeps_readV2 _ _ _) fun r => ?_
  refine keeps_ite (keeps_pure _) ?_
  refine keeps_ite ?_ (keeps_pure _)
  refine keeps_bind (keeps_openR _ _) fun b => ?_
  refine keeps_ite ?_ (keeps_pure _)
  refine keeps_bind keeps_getFS fun fs => ?_
  refine keeps_bind (keeps_fread _ _ _) fun txt => ?_
  split
  · exact keeps_pure _
  · exact keeps_ub
  · exact keeps_pure _

/-! ## Opening without faults -/

theorem wpc_openR_nf {base : CStr} {id : FileId} {w : World} {Q : Bool → World → Prop} {C : World → Prop}
    (hnf : w.faults = noFaults)
    (h : ∀ w', w'.fs = w.fs → w'.faults = noFaults → Q (w.fs.node (fileKey base id)).isSome w') :
    wpc (openAFile base id .r) w Q C := by
  unfold openAFile
  apply wpc_fopen_r
  · intro b w' h1 h2 _ h4
    rw [h4 hnf]
    exact h w' h1 (h2.trans hnf)
  · intro _ _ h'; exact absurd hnf h'

theorem wpc_readAll_nf {path : CStr} {w : World} {Q : CStr → World → Prop} {C : World → Prop}
    (hnf : w.faults = noFaults)
    (h : ∀ w', w'.fs = w.fs → w'.faults = noFaults → Q (w.fs.bytes (resolve path)) w') :
    wpc (freadAt path 0 (w.fs.bytes (resolve path)).length) w Q C := by
  apply wpc_freadAt
  · intro n w' h1 h2 h3
    rw [List.drop_zero, List.take_of_length_le (Nat.le_refl _), List.take_of_length_le (h3 hnf)]
    exact h w' h1 (h2.trans hnf)
  · intro _ _ h'; exact absurd hnf h'

theorem wpc_readV1_nf {env : Env} {s : AttrSet} {base : CStr} {w : World} {r : Int × AttrSet}
    {Q : Int × AttrSet → World → Prop} {C : World → Prop} (hnf : w.faults = noFaults)
    (hr : readsV1 env w.fs base s = some r)
    (h : ∀ w', w'.fs = w.fs → w'.faults = noFaults → Q r w') : wpc (readAttrsV1 env s base) w Q C := by
  unfold readAttrsV1
  rw [wpc_bind]
  apply wpc_openR_nf hnf
  intro w1 h1 hf1
  unfold readsV1 at hr
  by_cases hs : (w.fs.node (fileKey base .attr)).isSome = true
  · rw [if_pos hs] at hr ⊢
    rw [wpc_bind, wpc_getFS, wpc_bind]
    apply wpc_readAll_nf hf1
    intro w2 h2 hf2
    have hk : resolve (filePath base .attr) = fileKey base .attr := rfl
    rw [hk, h1]
    rw [wpc_bind]
    obtain ⟨⟨rc, s'⟩, hp, he⟩ := Option.map_eq_some_iff.mp hr
    rw [hp, wpc_lift_some]
    simp only
    rw [wpc_pure, he]
    exact h w2 (h2.trans h1) hf2
  · rw [if_neg hs] at hr ⊢
    rw [wpc_pure]
    injection hr with hr
    rw [hr]
    exact h w1 h1 hf1

theorem wpc_readV2_nf {env : Env} {s : AttrSet} {base : CStr} {w : World} {r : Int × AttrSet}
    {Q : Int × AttrSet → World → Prop} {C : World → Prop} (hnf : w.faults = noFaults)
    (hr : readsV2 env w.fs base s = some r)
    (h : ∀ w', w'.fs = w.fs → w'.faults = noFaults → Q r w') : wpc (readAttrsV2 env s base) w Q C := by
  unfold readAttrsV2
  rw [wpc_bind]
  apply wpc_openR_nf hnf
  intro w1 h1 hf1
  unfold readsV2 at hr
  by_cases hs : (w.fs.node (fileKey base .attrV2)).isSome = true
  · rw [if_pos hs] at hr ⊢
    rw [wpc_bind, wpc_getFS, wpc_bind]
    apply wpc_readAll_nf hf1
    intro w2 h2 hf2
    have hk : resolve (filePath base .attrV2) = fileKey base .attrV2 := rfl
    rw [hk, h1]
    rw [if_neg (by simp), wpc_bind]
    obtain ⟨⟨rc, s'⟩, hp, he⟩ := Option.map_eq_some_iff.mp hr
    rw [hp, wpc_lift_some]
    simp only
    rw [wpc_pure, he]
    exact h w2 (h2.trans h1) hf2
  · rw [if_neg hs] at hr ⊢
    rw [wpc_pure]
    injection hr with hr
    rw [hr]
    exact h w1 h1 hf1

/-- The handle made from a header and attributes. -/
def openedBlock (base dtype : CStr) (nmemb : Int) (nfile : Nat) (fsize fck : List Nat) (s : AttrSet) : Block :=
  ⟨dtype, nmemb, base, (runningSums 0 fsize).getLastD 0, fsize, runningSums 0 fsize, fck, nfile, s, false⟩

/-- Opening without faults when the attribute files are readable. -/
theorem wpc_blockOpen_nf {env : Env} {base : CStr} {w : World} {s1 s2 : AttrSet} {C : World → Prop}
    (hnf : w.faults = noFaults) (hlen : base.length ≤ 8192) (hmeta : isMeta base = false)
    (h1 : readsV1 env w.fs base (attrsetCreate env) = some (0, s1))
    (h2 : readsV2 env w.fs base s1 = some (0, s2))
    (hub : (w.fs.node (fileKey base .header)).isSome = true →
      parseHeader (w.fs.bytes (fileKey base .header)) ≠ .ub) :
    wpc (blockOpen env base) w (fun r w' => w'.fs = w.fs ∧ w'.faults = noFaults ∧
      ((r = (-1, none) ∧ ((w.fs.node (fileKey base .header)).isSome = false ∨
          parseHeader (w.fs.bytes (fileKey base .header)) = .err)) ∨
        (w.fs.node (fileKey base .header)).isSome = true ∧ ∃ dtype nmemb nfile fsize fck,
          parseHeader (w.fs.bytes (fileKey base .header)) = .ok dtype nmemb nfile fsize fck ∧
          r = (0, some (openedBlock base dtype nmemb nfile fsize fck s2)))) C := by
  unfold blockOpen
  simp only
  have hstr : strdup base = base := by unfold strdup; exact List.take_of_length_le hlen
  rw [hstr, wpc_bind]
  apply wpc_readV1_nf hnf h1
  intro w1 e1 f1
  simp only [ne_eq, not_true_eq_false, if_false]
  rw [wpc_bind]
  apply wpc_readV2_nf f1 (by rw [e1]; exact h2)
  intro w2 e2 f2
  simp only [ne_eq, not_true_eq_false, if_false]
  rw [hmeta]
  simp only [Bool.not_false, if_true]
  rw [wpc_bind]
  apply wpc_openR_nf f2
  intro w3 e3 f3
  rw [e2, e1]
  by_cases hs : (w.fs.node (fileKey base .header)).isSome = true
  · rw [if_pos hs, wpc_bind, wpc_getFS, wpc_bind]
    apply wpc_readAll_nf f3
    intro w4 e4 f4
    have hk : resolve (filePath base .header) = fileKey base .header := rfl
    rw [hk, e3, e2, e1]
    have efs : w4.fs = w.fs := by rw [e4, e3, e2, e1]
    cases hp : parseHeader (w.fs.bytes (fileKey base .header)) with
    | err => exact ⟨efs, f4, Or.inl ⟨rfl, Or.inr rfl⟩⟩
    | ub => exact absurd hp (hub hs)
    | ok dtype nmemb nfile fsize fck =>
      exact ⟨efs, f4, Or.inr ⟨hs, dtype, nmemb, nfile, fsize, fck, rfl, rfl⟩⟩
  · rw [if_neg hs, wpc_pure]
    refine ⟨by rw [e3, e2, e1], f3, Or.inl ⟨rfl, Or.inl (by simpa using hs)⟩⟩

end Verif
