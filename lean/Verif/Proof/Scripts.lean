import Verif.Spec.Scripts
import Verif.Proof.LsTool
import Verif.Proof.CopyMay
import Verif.Props.Copy
/-!
# Renaming and removing blocks
-/

set_option autoImplicit false

namespace Verif

open Spec

variable {env : Env} {K : Kind} {A : Content} {w : World}

theorem append_drop_prefix {a k : Key} (h : a <+: k) : a ++ k.drop a.length = k := by
  obtain ⟨t, rfl⟩ := h
  simp

theorem Spec.Moved.of_move {fs : FS} {a b : Key} (h1 : ¬ a <+: b) (h2 : ¬ b <+: a) : Moved a b fs (fs.move a b) := by
  refine ⟨?_, ?_, ?_⟩
  · intro t
    unfold FS.move
    simp
  · intro t
    unfold FS.move
    simp only
    rw [if_neg, if_pos (List.prefix_append _ _)]
    intro h
    rcases List.prefix_or_prefix_of_prefix h (List.prefix_append a t) with h | h
    · exact h2 h
    · exact h1 h
  · intro k ha hb
    unfold FS.move
    simp only
    rw [if_neg hb, if_neg ha]

theorem isKey_tail {a t : Key} (ha : a ≠ []) (h : IsKey (a ++ t)) : ∀ c ∈ t, IsName c := by
  intro c hc
  rcases h with h | ⟨s, hs, h⟩
  · exact h c (by simp [hc])
  · cases a with
    | nil => exact absurd rfl ha
    | cons x a =>
      rw [List.cons_append] at hs
      injection hs with _ hs
      exact h c (by rw [← hs]; simp [hc])

/-- Moving a tree keeps the file system a tree. -/
theorem Spec.TreeOk.move {fs : FS} (ht : TreeOk fs) {a b : Key} (ha : fs.node b = none) (hp : fs.node b.dropLast = some .dir)
    (hab : ¬ a <+: b) (hs : (fs.node a).isSome = true) (hr : a ≠ [[]]) (hk : IsKey b) : TreeOk (fs.move a b) := by
  have hb0 : b ≠ [] := by rintro rfl; rw [ht.cwd] at ha; cases ha
  have hb1 : b ≠ [[]] := by rintro rfl; rw [ht.root] at ha; cases ha
  have ha0 : a ≠ [] := by rintro rfl; exact hab (List.nil_prefix)
  have hone : ∀ k : Key, k <+: [[]] → k = [] ∨ k = [[]] := by
    intro k h
    obtain ⟨t, ht⟩ := h
    cases k with
    | nil => exact Or.inl rfl
    | cons x k =>
      rw [List.cons_append] at ht
      injection ht with h1 h2
      obtain ⟨rfl, _⟩ := List.append_eq_nil_iff.mp h2
      exact Or.inr (by rw [h1])
  have hnode : ∀ k, (fs.move a b).node k = if b <+: k then fs.node (a ++ k.drop b.length) else if a <+: k then none else fs.node k := fun _ => rfl
  constructor
  · rw [hnode, if_neg, if_neg]
    · exact ht.cwd
    · intro h; exact ha0 (List.prefix_nil.mp h)
    · intro h; exact hb0 (List.prefix_nil.mp h)
  · rw [hnode, if_neg, if_neg]
    · exact ht.root
    · intro h; rcases hone _ h with h | h
      · exact ha0 h
      · exact hr h
    · intro h; rcases hone _ h with h | h
      · exact hb0 h
      · exact hb1 h
  · intro k hk1 hk0
    rw [hnode] at hk1
    split at hk1
    · rename_i hpre
      obtain ⟨t, rfl⟩ := hpre
      rw [List.drop_left] at hk1
      by_cases ht0 : t = []
      · subst ht0
        rw [List.append_nil, hnode, if_neg, if_neg]
        · exact hp
        · intro h; exact hab (h.trans (List.dropLast_prefix b))
        · intro h
          have h1 := h.length_le
          have h2 := List.length_pos_iff.mpr hb0
          rw [List.length_dropLast] at h1
          omega
      · have e : (b ++ t).dropLast = b ++ t.dropLast := List.dropLast_append_of_ne_nil ht0
        have e' : (a ++ t).dropLast = a ++ t.dropLast := List.dropLast_append_of_ne_nil ht0
        rw [e, hnode, if_pos (List.prefix_append _ _), List.drop_left, ← e']
        exact ht.parent _ hk1 (by simp [ht0])
    · rename_i hnb
      split at hk1
      · cases hk1
      · rename_i hna
        rw [hnode, if_neg fun h => hnb (h.trans (List.dropLast_prefix k)), if_neg fun h => hna (h.trans (List.dropLast_prefix k))]
        exact ht.parent k hk1 hk0
  · intro k hk1
    rw [hnode] at hk1
    split at hk1
    · rename_i hpre
      obtain ⟨t, rfl⟩ := hpre
      rw [List.drop_left] at hk1
      exact isKey_append hk (isKey_tail ha0 (ht.keys _ hk1))
    · split at hk1
      · cases hk1
      · exact ht.keys k hk1
  · intro k hk1
    rw [hnode] at hk1
    unfold FS.move
    simp only [List.mem_append, List.mem_filter, List.mem_map]
    split at hk1
    · rename_i hpre
      right
      refine ⟨_, ⟨ht.dom _ hk1, by simp⟩, ?_⟩
      rw [List.drop_left]
      exact append_drop_prefix hpre
    · rename_i hnb
      split at hk1
      · cases hk1
      · rename_i hna
        left
        exact ⟨ht.dom _ hk1, by simp [hna, hnb]⟩
  · unfold FS.move
    simp only
    refine List.nodup_append.mpr ⟨ht.nodup.filter _, ?_, ?_⟩
    · unfold List.Nodup
      rw [List.pairwise_map]
      refine List.Pairwise.imp_of_mem ?_ (ht.nodup.filter fun k => decide (a <+: k))
      intro x y hx hy hne h
      simp only [List.mem_filter, decide_eq_true_eq] at hx hy
      have h := List.append_cancel_left h
      exact hne (by rw [← append_drop_prefix hx.2, ← append_drop_prefix hy.2, h])
    · intro x hx y hy he
      subst he
      simp only [List.mem_filter, Bool.not_eq_true', Bool.or_eq_false_iff, decide_eq_false_iff_not] at hx
      obtain ⟨z, _, hz⟩ := List.mem_map.mp hy
      exact hx.2.2 (by rw [← hz]; exact List.prefix_append _ _)

/-- A prefix of what exists exists. -/
theorem prefix_isSome {fs : FS} (ht : TreeOk fs) {p k : Key} (hs : (fs.node p).isSome = true) (hk : k <+: p) :
    (fs.node k).isSome = true := by
  by_cases he : k = p
  · rw [he]; exact hs
  · rw [prefix_dir_of ht hs hk he]; rfl

/-- `mv` can be done. -/
structure CanMove (fs : FS) (a b : Key) : Prop where
  src : (fs.node a).isSome = true
  parent : fs.node b.dropLast = some .dir
  apart : ¬ a <+: b
  root : 1 < a.length ∨ a.head? ≠ some []

theorem CanMove.moved {fs : FS} {a b : Key} (h : CanMove fs a b) (ht : TreeOk fs) (hb : fs.node b = none) (hk : IsKey b) :
    Moved a b fs (fs.move a b) ∧ TreeOk (fs.move a b) := by
  have h6 : ¬ b <+: a := by
    intro h'
    have := prefix_isSome ht h.src h'
    rw [hb] at this; cases this
  refine ⟨Moved.of_move h.apart h6, ht.move hb h.parent h.apart h.src ?_ hk⟩
  intro h7
  have := h.root
  rw [h7] at this
  simp at this

/-- Where `mv` puts it (bigfile-rename:14): into the target if that is a directory. -/
def mvTarget (fs : FS) (a b : CStr) : Key :=
  if fs.node (resolve b) = some .dir then resolve b ++ (resolve a).getLast?.toList else resolve b

/-- `mv` to a place where nothing is: done, or nothing has happened. -/
theorem wpc_mv_to {a b : CStr} {dst : Key} (hd : mvTarget w.fs a b = dst) (hb : w.fs.node dst = none) (hk : IsKey dst) (ht : TreeOk w.fs) :
    wpc (mv a b) w
      (fun ok w' => w'.faults = w.faults ∧ (ok = false ∧ w'.fs = w.fs ∧ (w.faults = noFaults → ¬ CanMove w.fs (resolve a) dst) ∨
        ok = true ∧ Moved (resolve a) dst w.fs w'.fs ∧ TreeOk w'.fs))
      (fun w' => w.faults ≠ noFaults ∧ (w'.fs = w.fs ∨ Moved (resolve a) dst w.fs w'.fs ∧ TreeOk w'.fs)) := by
  have hiff : (((w.fs.node (resolve a)).isSome && (w.fs.node dst).isNone && decide (w.fs.node dst.dropLast = some .dir) &&
      !decide (resolve a <+: dst) && decide (1 < (resolve a).length ∨ (resolve a).head? ≠ some [])) = true) ↔
      CanMove w.fs (resolve a) dst := by
    simp only [Bool.and_eq_true, decide_eq_true_eq, Bool.not_eq_true', decide_eq_false_iff_not]
    rw [hb]
    constructor
    · rintro ⟨⟨⟨⟨h1, _⟩, h3⟩, h4⟩, h5⟩; exact ⟨h1, h3, h4, h5⟩
    · rintro ⟨h1, h3, h4, h5⟩; exact ⟨⟨⟨⟨h1, rfl⟩, h3⟩, h4⟩, h5⟩
  unfold mv
  rw [wpc_bind, wpc_tick]
  by_cases h1 : w.faults w.clock = .fail
  · rw [if_pos h1]
    exact ⟨rfl, Or.inl ⟨rfl, rfl, fun h => (by rw [h] at h1; cases h1)⟩⟩
  · rw [if_neg h1]
    by_cases h2 : w.faults w.clock = .crash 0
    · rw [if_pos h2]
      exact ⟨fun h => (by rw [h] at h2; cases h2), Or.inl rfl⟩
    · rw [if_neg h2, wpc_bind, wpc_getFS]
      dsimp only
      rw [show (if w.fs.node (resolve b) = some .dir then resolve b ++ (resolve a).getLast?.toList else resolve b) = dst from hd]
      by_cases hc : CanMove w.fs (resolve a) dst
      · have hm := hc.moved ht hb hk
        rw [hiff.mpr hc, if_pos rfl, wpc_bind, wpc_setFS]
        dsimp only
        split
        · rename_i n hn
          exact ⟨fun h => (by rw [h] at hn; cases hn), Or.inr hm⟩
        · exact ⟨rfl, Or.inr ⟨rfl, hm⟩⟩
      · have hf := Bool.eq_false_iff.mpr fun h => hc (hiff.mp h)
        rw [hf, if_neg (by decide)]
        split
        · rename_i n hn
          exact ⟨fun h => (by rw [h] at hn; cases hn), Or.inl rfl⟩
        · exact ⟨rfl, Or.inl ⟨rfl, rfl, fun _ => hc⟩⟩

/-- `mv` to a name that does not exist: done, or nothing has happened. -/
theorem wpc_mv {a b : CStr} (hb : w.fs.node (resolve b) = none) (ht : TreeOk w.fs) :
    wpc (mv a b) w
      (fun ok w' => w'.faults = w.faults ∧ (ok = false ∧ w'.fs = w.fs ∧ (w.faults = noFaults → ¬ CanMove w.fs (resolve a) (resolve b)) ∨
        ok = true ∧ Moved (resolve a) (resolve b) w.fs w'.fs ∧ TreeOk w'.fs))
      (fun w' => w.faults ≠ noFaults ∧ (w'.fs = w.fs ∨ Moved (resolve a) (resolve b) w.fs w'.fs ∧ TreeOk w'.fs)) :=
  wpc_mv_to (by unfold mvTarget; rw [hb]; rfl) hb (isKey_resolve b) ht

/-! ## Removing -/

theorem Spec.Trimmed.refl (p : Key) (fs : FS) : Trimmed p fs fs := fun _ => Or.inl rfl

theorem Spec.Trimmed.trans {p : Key} {a b c : FS} (h : Trimmed p a b) (h' : Trimmed p b c) : Trimmed p a c := by
  intro k
  rcases h' k with h1 | h1
  · rw [h1]; exact h k
  · exact Or.inr h1

theorem Spec.Trimmed.none {p : Key} {a b : FS} (h : Trimmed p a b) {k : Key} (hk : a.node k = none) : b.node k = none := by
  rcases h k with h | h
  · rw [h, hk]
  · exact h.2

theorem Spec.Trimmed.remove {p : Key} {fs : FS} {k : Key} (h : p <+: k) : Trimmed p fs (fs.remove k) := by
  intro k'
  by_cases he : k' = k
  · right
    subst he
    exact ⟨h, if_pos rfl⟩
  · left
    exact if_neg he

theorem wpc_removeOne {p k : Key} (hk : p <+: k) :
    wpc (removeOne k) w
      (fun ok w' => w'.faults = w.faults ∧ Trimmed p w.fs w'.fs ∧ (ok = true → w'.fs.node k = none) ∧
        (w.faults = noFaults → (w.fs.node k).isSome = true → w.fs.entries k = [] → ok = true ∧ w'.fs = w.fs.remove k))
      (fun w' => w.faults ≠ noFaults ∧ Trimmed p w.fs w'.fs) := by
  unfold removeOne
  rw [wpc_bind, wpc_tick]
  by_cases h1 : w.faults w.clock = .fail
  · rw [if_pos h1]
    exact ⟨rfl, Trimmed.refl _ _, fun h => (by cases h), fun h => (by rw [h] at h1; cases h1)⟩
  · rw [if_neg h1]
    by_cases h2 : w.faults w.clock = .crash 0
    · rw [if_pos h2]
      exact ⟨fun h => (by rw [h] at h2; cases h2), Trimmed.refl _ _⟩
    · rw [if_neg h2, wpc_bind, wpc_getFS]
      dsimp only
      by_cases hc : ((w.fs.node k).isSome && (w.fs.entries k).isEmpty) = true
      · rw [hc, if_pos rfl, wpc_bind, wpc_setFS]
        dsimp only
        split
        · rename_i n hn
          exact ⟨fun h => (by rw [h] at hn; cases hn), Trimmed.remove hk⟩
        · exact ⟨rfl, Trimmed.remove hk, fun _ => if_pos rfl, fun _ _ _ => ⟨rfl, rfl⟩⟩
      · have hf := Bool.eq_false_iff.mpr hc
        rw [hf, if_neg (by decide)]
        split
        · rename_i n hn
          exact ⟨fun h => (by rw [h] at hn; cases hn), Trimmed.refl _ _⟩
        · refine ⟨rfl, Trimmed.refl _ _, fun h => (by cases h), fun _ h3 h4 => absurd ?_ hc⟩
          rw [h3, h4]
          rfl

theorem wpc_removeAll {p : Key} : ∀ (ks : List Key) (w : World), (∀ k ∈ ks, p <+: k) →
    wpc (removeAll ks) w
      (fun ok w' => w'.faults = w.faults ∧ Trimmed p w.fs w'.fs ∧ (ok = true → ∀ k ∈ ks, w'.fs.node k = none))
      (fun w' => w.faults ≠ noFaults ∧ Trimmed p w.fs w'.fs) := by
  intro ks
  induction ks with
  | nil => intro w _; exact ⟨rfl, Trimmed.refl _ _, fun _ _ h => (by cases h)⟩
  | cons k ks ih =>
    intro w hk
    unfold removeAll
    rw [wpc_bind]
    refine wpc_mono (wpc_removeOne (hk k (by simp))) ?_ (fun _ h => h)
    intro a w1 ⟨f1, t1, r1, _⟩
    rw [wpc_bind]
    refine wpc_mono (ih w1 fun x hx => hk x (by simp [hx])) ?_ (fun w2 h => ⟨by rw [← f1]; exact h.1, t1.trans h.2⟩)
    intro b w2 ⟨f2, t2, r2⟩
    refine ⟨f2.trans f1, t1.trans t2, ?_⟩
    intro h x hx
    rw [Bool.and_eq_true] at h
    rcases List.mem_cons.mp hx with rfl | hx
    · exact t2.none (r1 h.1)
    · exact r2 h.2 x hx

/-- `rm -r`: only what is at or below the path goes; if it succeeds, all of it. -/
theorem wpc_rmTree {order : List Key → List Key} (ho : ∀ l, (order l).Perm l) (ht : TreeOk w.fs) (path : CStr) :
    wpc (rmTree order path) w
      (fun ok w' => w'.faults = w.faults ∧ Trimmed (resolve path) w.fs w'.fs ∧ (ok = true → ∀ k, resolve path <+: k → w'.fs.node k = none))
      (fun w' => w.faults ≠ noFaults ∧ Trimmed (resolve path) w.fs w'.fs) := by
  unfold rmTree
  rw [wpc_bind, wpc_getFS]
  split
  · exact ⟨rfl, Trimmed.refl _ _, fun h => (by cases h)⟩
  · refine wpc_mono (wpc_removeAll (p := resolve path) _ w ?_) ?_ (fun _ h => h)
    · intro k hk
      have := (ho _).mem_iff.mp hk
      simp only [List.mem_filter, Bool.and_eq_true, decide_eq_true_eq] at this
      exact this.2.1
    · intro ok w' ⟨f, t, h⟩
      refine ⟨f, t, fun hok k hk => ?_⟩
      by_cases hs : (w.fs.node k).isSome = true
      · exact h hok k ((ho _).mem_iff.mpr (by
          simp only [List.mem_filter, Bool.and_eq_true, decide_eq_true_eq]
          exact ⟨ht.dom k hs, hk, hs⟩))
      · exact t.none (by simpa using hs)

theorem removeAll_succeeds {p : Key} : ∀ (ks : List Key) (w : World), w.faults = noFaults → (∀ k ∈ ks, p <+: k ∧ (w.fs.node k).isSome = true) →
    (∀ k, p <+: k → (w.fs.node k).isSome = true → k ∈ ks) → ks.Pairwise (fun x y => ¬ x <+: y) →
    ∃ w', removeAll ks w = .ok true w' ∧ w'.faults = noFaults := by
  intro ks
  induction ks with
  | nil => intro w h _ _ _; exact ⟨w, rfl, h⟩
  | cons k ks ih =>
    intro w hnf hks hall hp
    rw [List.pairwise_cons] at hp
    obtain ⟨hk1, hk2⟩ := hks k (by simp)
    have hent : w.fs.entries k = [] := by
      rw [List.eq_nil_iff_forall_not_mem]
      intro c hc
      unfold FS.entries at hc
      obtain ⟨k', hk', h⟩ := List.mem_filterMap.mp hc
      split at h
      · rename_i hcond
        rw [Bool.and_eq_true, decide_eq_true_eq] at hcond
        obtain ⟨hs, hd⟩ := hcond
        have hne : k' ≠ [] := by rintro rfl; simp at h
        have hpre : k <+: k' := by rw [← hd]; exact List.dropLast_prefix k'
        rcases List.mem_cons.mp (hall k' (hk1.trans hpre) hs) with he | hm
        · subst he
          have := congrArg List.length hd
          rw [List.length_dropLast] at this
          have := List.length_pos_iff.mpr hne
          omega
        · exact hp.1 k' hm hpre
      · cases h
    obtain ⟨a, w1, e1, f1, _, _, h1⟩ := wpc_returns (wpc_removeOne (w := w) hk1) (fun w' h => h.1 hnf)
    obtain ⟨rfl, hfs⟩ := h1 hnf hk2 hent
    have hnode : ∀ x, w1.fs.node x = if x = k then none else w.fs.node x := by rw [hfs]; intro x; rfl
    have hnk : ∀ x ∈ ks, x ≠ k := by
      rintro x hx rfl
      exact hp.1 x hx (List.prefix_refl x)
    obtain ⟨w2, e2, f2⟩ := ih w1 (f1.trans hnf) (fun x hx => by
        rw [hnode, if_neg (hnk x hx)]
        exact hks x (by simp [hx])) (fun x hx hs => by
        rw [hnode] at hs
        split at hs
        · cases hs
        · rename_i hne
          rcases List.mem_cons.mp (hall x hx hs) with h | h
          · exact absurd h hne
          · exact h) hp.2
    refine ⟨w2, ?_, f2⟩
    unfold removeAll
    simp only [bind, M.bind]
    rw [e1]
    dsimp only
    rw [e2]
    rfl

theorem rmTree_succeeds {order : List Key → List Key} (ho : ChildrenFirst order) (ht : TreeOk w.fs) (hnf : w.faults = noFaults) {path : CStr}
    (hs : (w.fs.node (resolve path)).isSome = true) :
    ∃ w', rmTree order path w = .ok true w' ∧ w'.faults = noFaults := by
  have hmem : ∀ k, k ∈ order (w.fs.dom.filter fun k => decide (resolve path <+: k) && (w.fs.node k).isSome) ↔
      resolve path <+: k ∧ (w.fs.node k).isSome = true := by
    intro k
    rw [((ho _).1).mem_iff, List.mem_filter, Bool.and_eq_true, decide_eq_true_eq]
    exact ⟨fun h => h.2, fun h => ⟨ht.dom k h.2, h⟩⟩
  obtain ⟨w', e, f⟩ := removeAll_succeeds (p := resolve path) _ w hnf (fun k hk => (hmem k).mp hk) (fun k h1 h2 => (hmem k).mpr ⟨h1, h2⟩)
    ((ho _).2 (ht.nodup.filter _))
  refine ⟨w', ?_, f⟩
  unfold rmTree
  simp only [bind, M.bind]
  show (if (w.fs.node (resolve path)).isNone = true then _ else _ : M Bool) w = _
  rw [if_neg (by rw [Option.isNone_iff_eq_none]; intro h; rw [h] at hs; cases hs)]
  exact e

/-! ## Blocks -/

/-- A block is what its files say, wherever its directory is. -/
theorem Spec.OnDisk.at {fs fs' : FS} {p q : CStr} (h : OnDisk env K fs p A) (hdir : fs'.node (resolve q) = fs.node (resolve p))
    (hfiles : ∀ id, fs'.node (fileKey q id) = fs.node (fileKey p id)) (hl : q.length ≤ 8192) (hm : isMeta q = false) :
    OnDisk env K fs' q A := by
  obtain ⟨h1, h2, b, rfl, h3, hb⟩ := h
  refine ⟨h1, h2, { b with basename := q }, rfl, h3, ?_⟩
  have hby : ∀ id, fs'.bytes (fileKey q id) = fs.bytes (fileKey b.basename id) := by
    intro id
    unfold FS.bytes
    rw [hfiles]
  have hrow : ∀ r, row env.m fs' { b with basename := q } r = row env.m fs b r := by
    intro r
    unfold row
    rw [show ({ b with basename := q } : Block).basename = q from rfl, show rowFile { b with basename := q } r = rowFile b r from rfl, hby]
    rfl
  have hL := hb.ok.layout
  have hG := hb.savable.header
  have hS := hb.savable
  refine ⟨⟨⟨hL.nfile, hL.nck, hL.foff, hL.size, hL.small, hL.ck32⟩, hb.ok.item, hb.ok.item0, hb.ok.memb, hb.ok.memb0, hb.ok.felInt, hb.ok.buf,
    hb.ok.bufMax, hb.ok.offs⟩, hb.kind, hb.size, hb.nfile,
    ⟨hS.fmt, ⟨hG.dt, hG.nmemb0, hG.nmembMax, hG.nfile, hG.nck, hG.nfileMax, hG.sizes, hG.cks⟩, hS.offsets, hS.size, hS.attrs, hS.storable, hl, hm⟩,
    hb.attrs, hb.pending, hb.tame, ?_, ?_, ⟨?_, ?_, ?_⟩, ?_, ?_, ?_, ?_⟩
  · intro hp
    obtain ⟨s1, s2, k1, k2, k3, k4⟩ := hb.saved hp
    refine ⟨s1, s2, ?_, ?_, k3, k4⟩
    · rw [← k1]; unfold readsV1; rw [hby, hfiles]
    · rw [← k2]; unfold readsV2; rw [hby, hfiles]
  · intro hh
    obtain ⟨k1, k2⟩ := hb.header hh
    exact ⟨by rw [hfiles]; exact k1, by rw [hby]; exact k2⟩
  · rw [hdir]; exact hb.dir.dir
  · rw [hfiles]; exact hb.dir.header
  · rw [hfiles]; exact hb.dir.attr
  · rw [hfiles]; exact hb.noOld
  · intro f; rw [hfiles]; exact hb.noDirs f
  · intro f hf
    obtain ⟨d, hd⟩ := hb.data f hf
    exact ⟨d, by rw [hfiles]; exact hd⟩
  · intro r bytes hr
    obtain ⟨k1, k2, k3⟩ := hb.rows r bytes hr
    refine ⟨k1, (hrow r).trans k2, ?_⟩
    unfold Stored
    rw [hrow]
    exact k3

theorem resolve_slashed (base name : CStr) (hb : base ≠ []) : resolve (slashed base name) = resolve base ++ names name := by
  unfold slashed
  rw [resolve_names, resolve_names base, isAbs_append _ _ hb, names_append, List.append_assoc]

/-- What `rm -r` of another path leaves of a block. -/
theorem Spec.OnDisk.trimmed {fs fs' : FS} {p : Key} {q : CStr} (h : OnDisk env K fs q A) (ht : Trimmed p fs fs') (hq : ¬ p <+: resolve q)
    (hf : ∀ id, p ≠ fileKey q id) : OnDisk env K fs' q A := by
  refine h.congr ?_ ?_
  · rcases ht (resolve q) with h1 | h1
    · exact h1
    · exact absurd h1.1 hq
  · intro id
    rcases ht (fileKey q id) with h1 | h1
    · exact h1
    · rw [fileKey_eq, List.prefix_concat_iff] at h1
      rcases h1.1 with h2 | h2
      · exact absurd (by rw [fileKey_eq]; exact h2) (hf id)
      · exact absurd h2 hq

theorem readSimple_keeps (env : Env) (bb : Block) (start size : Int) (dtype : Option CStr) (buf : Int) (mem : Mem) :
    KeepsTree (readSimple env bb start size dtype buf mem) := by
  unfold readSimple
  refine KeepsTree.bind (KeepsTree.lift _) ?_
  rintro ⟨rc, ptr⟩
  refine KeepsTree.ite (KeepsTree.pure _) (KeepsTree.ite (KeepsTree.pure _) (KeepsTree.bind (KeepsTree.lift _) fun a => ?_))
  exact KeepsTree.bind (blockRead_keeps _ _ _ _ _ _) fun x => KeepsTree.ite (KeepsTree.pure _) (KeepsTree.pure _)

theorem copyLoop_keeps (env : Env) (bb : Block) (chunk : Nat) (buf : Int) : ∀ (fuel : Nat) (bbnew : Block) (offset : Nat) (mem : Mem),
    KeepsTree (copyLoop env bb chunk buf fuel bbnew offset mem) := by
  intro fuel
  induction fuel with
  | zero => intro _ _ _; exact KeepsTree.hang
  | succ fuel ih =>
    intro bbnew offset mem
    unfold copyLoop
    refine KeepsTree.ite (KeepsTree.bind (readSimple_keeps _ _ _ _ _ _ _) ?_) (KeepsTree.pure _)
    rintro ⟨rc, arr, mem⟩
    cases arr with
    | none => exact KeepsTree.pure _
    | some a =>
      refine KeepsTree.bind (KeepsTree.lift _) ?_
      rintro ⟨rc, ptr⟩
      exact KeepsTree.ite (KeepsTree.pure _) (KeepsTree.bind (blockWrite_keeps _ _ _ _ _ _) fun x =>
        KeepsTree.ite (KeepsTree.pure _) (ih _ _ _))

theorem copyMain_keeps (env : Env) (file block newfile newblock : CStr) (nfile : Option Nat) (buffersize : Nat) (buf : Int) (mem : Mem) :
    KeepsTree (copyMain env file block newfile newblock nfile buffersize buf mem) := by
  unfold copyMain
  refine KeepsTree.bind (KeepsTree.bind (statOk_keeps _) fun _ => KeepsTree.ite (KeepsTree.pure _) (KeepsTree.pure _)) ?_
  rintro ⟨rc, bf⟩
  refine KeepsTree.ite (KeepsTree.pure _) (KeepsTree.bind (bigFileCreate_keeps _) ?_)
  rintro ⟨rc, bfnew⟩
  refine KeepsTree.ite (KeepsTree.pure _) (KeepsTree.bind (blockOpen_keeps _ _) ?_)
  rintro ⟨rc, o⟩
  cases o with
  | none => exact KeepsTree.pure _
  | some bb =>
    refine KeepsTree.bind (createBlock_keeps _ _ _ _ _ _) ?_
    rintro ⟨rc, o⟩
    cases o with
    | none => exact KeepsTree.pure _
    | some bbnew =>
      refine KeepsTree.ite (KeepsTree.pure _) (KeepsTree.bind (KeepsTree.lift _) ?_)
      rintro ⟨s, src⟩
      have hdata : ∀ bb bbnew, KeepsTree (copyData env bb bbnew buffersize buf mem) := by
        intro bb bbnew
        unfold copyData
        exact KeepsTree.ite (KeepsTree.bind (KeepsTree.lift _) fun _ => copyLoop_keeps _ _ _ _ _ _ _ _) (KeepsTree.pure _)
      refine KeepsTree.bind (hdata _ _) ?_
      rintro ⟨e, bbnew⟩
      exact KeepsTree.ite (KeepsTree.pure _) (KeepsTree.bind (blockClose_keeps _ _) fun _ => KeepsTree.ite (KeepsTree.pure _)
        (KeepsTree.bind (blockClose_keeps _ _) fun _ => KeepsTree.pure _))

end Verif
