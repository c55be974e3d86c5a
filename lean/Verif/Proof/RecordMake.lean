import Verif.Spec.RecordMake
import Verif.Proof.Copy
import Verif.Props.Copy
import Verif.Proof.RecordIO
/-!
# Making the blocks of a record type
-/

set_option autoImplicit false

namespace Verif

open Spec

/-! ## What a successful call did -/

theorem bind_ok_iff {α β : Type} {m : M α} {f : α → M β} {w w' : World} {b : β} :
    (m >>= f) w = .ok b w' ↔ ∃ a w1, m w = .ok a w1 ∧ f a w1 = .ok b w' := by
  simp only [bind, M.bind]
  constructor
  · intro e
    split at e
    · rename_i a w1 e1; exact ⟨a, w1, e1, e⟩
    all_goals cases e
  · rintro ⟨a, w1, e1, e⟩
    rw [e1]; exact e

theorem pure_ok_iff {α : Type} {a b : α} {w w' : World} : (pure a : M α) w = .ok b w' ↔ a = b ∧ w = w' := by
  show Res.ok a w = _ ↔ _
  simp

theorem lift_ok_iff {α : Type} {x : Option α} {b : α} {w w' : World} : M.lift x w = .ok b w' ↔ x = some b ∧ w = w' := by
  cases x with
  | none => exact ⟨fun e => (nomatch e), fun e => (nomatch e.1)⟩
  | some a =>
    show Res.ok a w = _ ↔ _
    simp

theorem ub_ok_iff {α : Type} {b : α} {w w' : World} : (M.ub : M α) w = .ok b w' ↔ False :=
  ⟨fun e => (nomatch e), False.elim⟩

/-- The loop returns 0 exactly if each of the steps returns 0. -/
theorem eachField_ok {act : RField → Mem → M (Int × Mem)} {step : RField → Mem → World → Mem → World → Prop}
    (h : ∀ f mem w mem' w', act f mem w = .ok (0, mem') w' ↔ step f mem w mem' w') :
    ∀ (fields : List RField) (mem : Mem) (w : World) (mem' : Mem) (w' : World),
      eachField act fields mem w = .ok (0, mem') w' ↔ AllFields step fields mem w mem' w' := by
  intro fields
  induction fields with
  | nil =>
    intro mem w mem' w'
    rw [eachField, pure_ok_iff]
    constructor
    · rintro ⟨e, rfl⟩
      injection e with _ e
      subst e
      exact .nil _ _
    · intro e
      cases e
      exact ⟨rfl, rfl⟩
  | cons f fs ih =>
    intro mem w mem' w'
    rw [eachField, bind_ok_iff]
    constructor
    · rintro ⟨⟨rc, mem1⟩, w1, e1, e⟩
      simp only at e
      by_cases hrc : rc = 0
      · subst hrc
        rw [if_neg (by simp)] at e
        exact .cons ((h _ _ _ _ _).mp e1) ((ih _ _ _ _).mp e)
      · rw [if_pos hrc, pure_ok_iff] at e
        simp at e
    · intro e
      cases e with
      | cons h1 h2 => exact ⟨_, _, (h _ _ _ _ _).mpr h1, (ih _ _ _ _).mpr h2⟩

/-- It returns 0 or -1. -/
theorem eachField_rc {act : RField → Mem → M (Int × Mem)} :
    ∀ (fields : List RField) (mem : Mem) (w : World) (r : Int × Mem) (w' : World),
      eachField act fields mem w = .ok r w' → r.1 = 0 ∨ r.1 = -1 := by
  intro fields
  induction fields with
  | nil =>
    intro mem w r w' e
    rw [eachField, pure_ok_iff] at e
    left; rw [← e.1]
  | cons f fs ih =>
    intro mem w r w' e
    rw [eachField, bind_ok_iff] at e
    obtain ⟨⟨rc, mem1⟩, w1, e1, e⟩ := e
    simp only at e
    split at e
    · rw [pure_ok_iff] at e
      right; rw [← e.1]
    · exact ih _ _ _ _ e

theorem closeField_ok {env : Env} {bb : Block} {rc : Int} {mem mem' : Mem} {w w' : World} :
    closeField env bb rc mem w = .ok (0, mem') w' ↔ rc = 0 ∧ mem = mem' ∧ blockClose env bb w = .ok 0 w' := by
  unfold closeField
  rw [bind_ok_iff]
  constructor
  · rintro ⟨rc2, w1, e1, e⟩
    rw [pure_ok_iff] at e
    obtain ⟨e, rfl⟩ := e
    injection e with h1 h2
    by_cases hr : rc ≠ 0 ∨ rc2 ≠ 0
    · rw [if_pos hr] at h1; exact absurd h1 (by decide)
    · have : rc = 0 ∧ rc2 = 0 := by omega
      obtain ⟨rfl, rfl⟩ := this
      exact ⟨rfl, h2, e1⟩
  · rintro ⟨rfl, rfl, e⟩
    exact ⟨0, w', e, rfl⟩

/-- The shape of a transfer of one field. -/
theorem transfer_ok {env : Env} {bf : CStr} {f : RField} {p : Int} {va : Option Arr} {mem mem' : Mem} {w w' : World}
    (xfer : Block → Ptr → Arr → M Xfer) :
    (do
      let a ← M.lift va
      match f.name with
      | none => M.ub
      | some name =>
        match ← openBlock env bf name with
        | (0, some bb) => do
          let (rc, ptr) ← M.lift (seek bb ⟨0, 0, 0⟩ p)
          if rc ≠ 0 then closeField env bb rc mem
          else do
            let x ← xfer bb ptr a
            closeField env x.bb x.rc x.mem
        | _ => pure (-1, mem) : M (Int × Mem)) w = .ok (0, mem') w' ↔
    ∃ name a bb ptr x w1 w2, f.name = some name ∧ va = some a ∧
      openBlock env bf name w = .ok (0, some bb) w1 ∧ seek bb ⟨0, 0, 0⟩ p = some (0, ptr) ∧
      xfer bb ptr a w1 = .ok x w2 ∧ x.rc = 0 ∧ x.mem = mem' ∧ blockClose env x.bb w2 = .ok 0 w' := by
  rw [bind_ok_iff]
  constructor
  · rintro ⟨a, w0, e0, e⟩
    obtain ⟨rfl, rfl⟩ := lift_ok_iff.mp e0
    cases hname : f.name with
    | none => rw [hname] at e; exact (ub_ok_iff.mp e).elim
    | some name =>
      rw [hname] at e
      obtain ⟨r, w1, e1, e⟩ := bind_ok_iff.mp e
      split at e
      · rename_i bb
        obtain ⟨⟨rc, ptr⟩, w2, e2, e⟩ := bind_ok_iff.mp e
        obtain ⟨e2', rfl⟩ := lift_ok_iff.mp e2
        simp only at e
        split at e
        · rename_i hrc
          exact absurd (closeField_ok.mp e).1 hrc
        · rename_i hrc
          have hrc : rc = 0 := by omega
          subst hrc
          obtain ⟨x, w2, e3, e⟩ := bind_ok_iff.mp e
          obtain ⟨h1, h2, h3⟩ := closeField_ok.mp e
          exact ⟨name, a, bb, ptr, x, w1, w2, rfl, rfl, e1, e2', e3, h1, h2, h3⟩
      · obtain ⟨e, _⟩ := pure_ok_iff.mp e
        injection e with e
        exact absurd e (by decide)
  · rintro ⟨name, a, bb, ptr, x, w1, w2, hname, rfl, e1, e2, e3, h1, h2, h3⟩
    refine ⟨a, w, rfl, ?_⟩
    rw [hname]
    refine bind_ok_iff.mpr ⟨_, w1, e1, ?_⟩
    refine bind_ok_iff.mpr ⟨_, w1, lift_ok_iff.mpr ⟨e2, rfl⟩, ?_⟩
    simp only [ne_eq, not_true_eq_false, if_false]
    exact bind_ok_iff.mpr ⟨x, w2, e3, closeField_ok.mpr ⟨h1, h2, h3⟩⟩

theorem writeField_ok {env : Env} {bf : CStr} {rt : RType} {p : Int} {n : Nat} {buf : Int} (f : RField) (mem : Mem) (w : World)
    (mem' : Mem) (w' : World) :
    writeField env bf rt p n buf f mem w = .ok (0, mem') w' ↔ FieldStored env bf rt p n buf f mem w mem' w' :=
  transfer_ok (fun bb ptr a => blockWrite env bb ptr a mem)

theorem readField_ok {env : Env} {bf : CStr} {rt : RType} {p : Int} {n : Nat} {buf : Int} (f : RField) (mem : Mem) (w : World)
    (mem' : Mem) (w' : World) :
    readField env bf rt p n buf f mem w = .ok (0, mem') w' ↔ FieldFetched env bf rt p n buf f mem w mem' w' :=
  transfer_ok (fun bb ptr a => blockRead env bb ptr a mem)

theorem closed_ok {env : Env} {bb : Block} {w w' : World} :
    (do if (← blockClose env bb) ≠ 0 then pure (-1) else pure 0 : M Int) w = .ok 0 w' ↔ blockClose env bb w = .ok 0 w' := by
  rw [bind_ok_iff]
  constructor
  · rintro ⟨rc, w1, e1, e⟩
    split at e
    · obtain ⟨e, _⟩ := pure_ok_iff.mp e
      exact absurd e (by decide)
    · rename_i hrc
      obtain ⟨_, rfl⟩ := pure_ok_iff.mp e
      have hrc : rc = 0 := by omega
      subst hrc; exact e1
  · intro e
    exact ⟨0, w', e, rfl⟩

theorem createField_ok {env : Env} {bf : CStr} {fsize : List Nat} (mode : RMode) (f : RField) (mem : Mem) (w : World)
    (mem' : Mem) (w' : World) :
    (do let rc ← createField env bf mode fsize f; pure (rc, mem) : M (Int × Mem)) w = .ok (0, mem') w' ↔
      FieldMade env bf fsize mode f mem w mem' w' := by
  rw [bind_ok_iff]
  have key : (∃ a w1, createField env bf mode fsize f w = .ok a w1 ∧ (pure (a, mem) : M (Int × Mem)) w1 = .ok (0, mem') w') ↔
      mem' = mem ∧ createField env bf mode fsize f w = .ok 0 w' := by
    constructor
    · rintro ⟨a, w1, e1, e⟩
      obtain ⟨e', rfl⟩ := pure_ok_iff.mp e
      have h1 : a = 0 := congrArg Prod.fst e'
      have h2 : mem = mem' := congrArg Prod.snd e'
      subst h1
      exact ⟨h2.symm, e1⟩
    · rintro ⟨rfl, e⟩
      exact ⟨0, w', e, rfl⟩
  rw [key]
  unfold createField
  cases mode with
  | wplus =>
    unfold FieldMade
    refine and_congr_right fun _ => ?_
    cases hn : f.name with
    | none => exact ⟨fun e => (ub_ok_iff.mp e).elim, fun ⟨_, _, _, h, _⟩ => by cases h⟩
    | some name =>
      simp only
      rw [bind_ok_iff]
      constructor
      · rintro ⟨r, w1, e1, e⟩
        split at e
        · rename_i bb
          exact ⟨name, bb, w1, rfl, e1, closed_ok.mp e⟩
        · exact absurd (pure_ok_iff.mp e).1 (by decide)
      · rintro ⟨name', bb, w1, hn', e1, e⟩
        injection hn' with hn'
        subst hn'
        exact ⟨_, w1, e1, closed_ok.mpr e⟩
  | aplus =>
    unfold FieldMade
    refine and_congr_right fun _ => ?_
    cases hn : f.name with
    | none => exact ⟨fun e => (ub_ok_iff.mp e).elim, fun ⟨_, _, _, _, _, h, _⟩ => by cases h⟩
    | some name =>
      simp only
      rw [bind_ok_iff]
      constructor
      · rintro ⟨r, w1, e1, e⟩
        split at e
        · rename_i bb
          obtain ⟨⟨rc, bb'⟩, w2, e2, e⟩ := bind_ok_iff.mp e
          simp only at e
          split at e
          · obtain ⟨_, _, _, e⟩ := bind_ok_iff.mp e
            exact absurd (pure_ok_iff.mp e).1 (by decide)
          · rename_i hrc
            have hrc : rc = 0 := by omega
            subst hrc
            exact ⟨name, bb, bb', w1, w2, rfl, e1, e2, closed_ok.mp e⟩
        · exact absurd (pure_ok_iff.mp e).1 (by decide)
      · rintro ⟨name', bb, bb', w1, w2, hn', e1, e2, e⟩
        injection hn' with hn'
        subst hn'
        refine ⟨_, w1, e1, bind_ok_iff.mpr ⟨_, w2, e2, ?_⟩⟩
        simp only [ne_eq, not_true_eq_false, if_false]
        exact closed_ok.mpr e
  | other =>
    unfold FieldMade
    constructor
    · rintro ⟨_, e⟩
      cases hn : f.name with
      | none => rw [hn] at e; exact ub_ok_iff.mp e
      | some name => rw [hn] at e; exact absurd (pure_ok_iff.mp e).1 (by decide)
    · exact False.elim

/-! ## One field -/

theorem closed_eq {A : Content} (h1 : A.pending = false) (h2 : A.saved = A.attrs) : A.closed = A := by
  cases A
  simp only at h1 h2
  subst h1 h2
  rfl

/-- Only files of the block, and directories above it, have changed. -/
def ChangedAt (base : CStr) (fs fs' : FS) : Prop :=
  ∀ k, fs'.node k ≠ fs.node k → (∃ id, k = fileKey base id) ∨ k <+: resolve base

theorem ChangedAt.of_outside {base : CStr} {fs fs' : FS} (h : SameOutside base fs fs') : ChangedAt base fs fs' := by
  intro k hk
  by_cases he : ∃ id, k = fileKey base id
  · exact Or.inl he
  · exact absurd (h k fun id e => he ⟨id, e⟩) hk

theorem ChangedAt.trans {base : CStr} {a b c : FS} (h : ChangedAt base a b) (h' : ChangedAt base b c) : ChangedAt base a c := by
  intro k hk
  by_cases he : b.node k = a.node k
  · exact h' k (by rw [he]; exact hk)
  · exact h k he

/-- A block elsewhere keeps its content. -/
theorem Spec.OnDisk.changedAt {env : Env} {K : Kind} {A : Content} {fs fs' : FS} {base dst : CStr} (h : OnDisk env K fs base A)
    (ha : Apart base dst) (hl : Later fs fs') (hc : ChangedAt dst fs fs') : OnDisk env K fs' base A := by
  obtain ⟨_, _, b, hb, _, hh⟩ := id h
  have hd := hh.dir.dir
  rw [hb] at hd
  refine h.congr ?_ ?_
  · rw [hd]; exact (hl.2 _).1 hd
  · intro id
    by_cases he : fs'.node (fileKey base id) = fs.node (fileKey base id)
    · exact he
    · rcases hc _ he with ⟨id', h'⟩ | h'
      · exact absurd (C38_files_distinct _ _ _ _ h').1 ha.ne
      · exact absurd h' (ha.notBelow id)

/-- Room elsewhere remains. -/
theorem Spec.Room.changedAt {fs fs' : FS} {base dst : CStr} (h : Room fs base) (ha : Apart base dst) (ha' : Apart dst base)
    (ht : TreeOk fs') (hd : fs'.node (resolve dst) = some .dir) (hc : ChangedAt dst fs fs') : Room fs' base := by
  have hid : ∀ id, fs'.node (fileKey base id) = fs.node (fileKey base id) := by
    intro id
    by_cases he : fs'.node (fileKey base id) = fs.node (fileKey base id)
    · exact he
    · rcases hc _ he with ⟨id', h'⟩ | h'
      · exact absurd (C38_files_distinct _ _ _ _ h').1 ha.ne
      · exact absurd h' (ha.notBelow id)
  refine ⟨?_, fun id => by rw [hid]; exact h.files id, by rw [hid]; exact h.noOld⟩
  intro k hk hf
  by_cases he : fs'.node k = fs.node k
  · exact h.way k hk (by unfold IsFile at hf ⊢; rw [← he]; exact hf)
  · rcases hc _ he with ⟨id', rfl⟩ | ⟨t, h'⟩
    · exact ha'.notBelow id' hk
    · have hdir : fs'.node k = some .dir := by
        by_cases ht0 : t = []
        · rw [ht0, List.append_nil] at h'
          rw [h']; exact hd
        · exact ht.prefix_dir k t (by rw [h', hd]; rfl) ht0
      obtain ⟨d, hf⟩ := hf
      rw [hdir] at hf
      cases hf

section
variable {env : Env} {bf : CStr} {f : RField} {fsize : List Nat}

/-- **One block made.** -/
theorem make_step {w : World} (hfmt : FmtOk env) (hbufM : env.chunkBytes < 18446744073709551616) (hnf : w.faults = noFaults)
    (ht : TreeOk w.fs) (hbf : bf ≠ []) (hdir : w.fs.node (resolve bf) = some .dir) (hm : Makable env bf f)
    (hs : SizesOk env fsize f) (hroom : Room w.fs (fieldPath bf f)) (mem : Mem) :
    ∃ w', FieldMade env bf fsize .wplus f mem w mem w' ∧ w'.faults = noFaults ∧ Later w.fs w'.fs ∧
      OnDisk env (fieldKind env f) w'.fs (fieldPath bf f) (Content.fresh fsize) ∧
      ChangedAt (fieldPath bf f) w.fs w'.fs := by
  obtain ⟨name, hname⟩ := Option.isSome_iff_exists.mp hm.name
  have hp : fieldPath bf f = pathJoin bf name := by unfold fieldPath; rw [hname]; rfl
  obtain ⟨s1, s2, s3⟩ := hs
  have m1 := hm.length; have m2 := hm.notMeta; have m3 := hm.blank
  rw [hp] at hroom m1 m2 m3
  have m4 := hm.item
  have m5 := hm.memb
  have m6 := hm.small
  have m7 := hm.buf
  obtain ⟨w1, e1⟩ := createBlock_succeeds (env := env) (dt := f.dtype) (nmemb := f.nmemb) (fsize := fsize) (name := name)
    hnf hbf hdir m1 m2 m3 hroom
  unfold fieldSize at m6 m7 s3
  obtain ⟨h1, nf1⟩ := fresh_holds (wd := (itemsize env.m f.dtype).toNat) (nm := f.nmemb.toNat) hfmt hnf m1 m2 hm.dtype
    (by rw [itemsize_normalize]; omega) (by omega) (by omega) (by omega) m6 m7 hbufM s1 s2 s3 e1
    (fun d hd => hroom.way _ (List.prefix_refl _) ⟨d, hd⟩) hroom.noOld (fun f => hroom.files _)
  rw [normalize_idem] at h1
  change Holds env (fieldKind env f) _ w1.fs _ at h1
  obtain ⟨l1, c1, _⟩ := wlp_ok (createBlock_out env bf name (some f.dtype) f.nmemb fsize w ht hbf m1) e1
  have c1' : ChangedAt (pathJoin bf name) w.fs w1.fs := by
    intro k hk
    rcases c1 k hk with h | ⟨t, h, hk⟩
    · exact Or.inl h
    · obtain ⟨u, hu⟩ := h
      exact Or.inr ⟨u, by rw [hk, List.append_assoc, hu, resolve_join bf name hbf]⟩
  obtain ⟨w2, e2, nf2, o2, d2⟩ := h1.closes nf1
  have l2 := wlp_ok (blockClose_keeps env (freshBlock env (pathJoin bf name) f.dtype f.nmemb fsize) w1 l1.1) e2
  rw [closed_eq rfl rfl] at d2
  refine ⟨w2, ⟨rfl, name, _, w1, hname, e1, e2⟩, nf2, l1.trans l2, ?_, ?_⟩
  · rw [hp]; exact d2
  · rw [hp]
    exact c1'.trans (ChangedAt.of_outside o2)

/-- **One block extended.** -/
theorem extend_step {w : World} {A : Content} (hnf : w.faults = noFaults) (ht : TreeOk w.fs) (hn : f.name.isSome = true)
    (h : OnDisk env (fieldKind env f) w.fs (fieldPath bf f) A) (hl : A.legal env (fieldKind env f) (.grow fsize)) (mem : Mem) :
    ∃ w', FieldMade env bf fsize .aplus f mem w mem w' ∧ w'.faults = noFaults ∧ Later w.fs w'.fs ∧
      OnDisk env (fieldKind env f) w'.fs (fieldPath bf f) (A.next env (fieldKind env f) (.grow fsize)) ∧
      ChangedAt (fieldPath bf f) w.fs w'.fs := by
  obtain ⟨name, hname⟩ := Option.isSome_iff_exists.mp hn
  have hp : fieldPath bf f = pathJoin bf name := by unfold fieldPath; rw [hname]; rfl
  rw [hp] at h ⊢
  obtain ⟨b, w1, e1, f1, nf1, hb, _, h1⟩ := h.opens hnf
  rw [← f1] at h1
  obtain ⟨x, b2, w2, e2, hd⟩ := grow_step h1 nf1 fsize hl
  obtain ⟨⟨rc, bb'⟩, w2', g1, g2⟩ := bind_ok_iff.mp e2
  obtain ⟨g3, rfl⟩ := pure_ok_iff.mp g2
  have hx : x = ⟨rc, env.junk, none⟩ := (congrArg Prod.fst g3).symm
  have hb2 : b2 = bb' := (congrArg Prod.snd g3).symm
  subst hb2
  have hrc : rc = 0 := by have := hd.ans; rw [hx] at this; exact this
  subst hrc
  obtain ⟨w3, e3, nf3, o3, d3⟩ := hd.holds.closes hd.faults
  have hp1 : A.pending = false := h.1
  have hp2 : A.saved = A.attrs := h.2.1
  rw [closed_eq (A := A.next env (fieldKind env f) (.grow fsize)) hp1 hp2, hd.base, hb] at d3
  have o2 := wlp_ok (blockGrow_touches b fsize w1) g1
  have l2 := wlp_ok (blockGrow_keeps b fsize w1 (by rw [f1]; exact ht)) g1
  have l3 := wlp_ok (blockClose_keeps env b2 w2' l2.1) e3
  rw [hd.base, hb] at o3
  rw [hb] at o2
  rw [f1] at o2 l2
  exact ⟨w3, ⟨rfl, name, b, b2, w1, w2', hname, e1, g1, e3⟩, nf3, l2.trans l3, d3, ChangedAt.of_outside (o2.trans o3)⟩

end

end Verif
