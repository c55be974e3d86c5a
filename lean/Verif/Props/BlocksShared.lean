import Verif.Spec.BlocksShared
import Verif.Props.Blocks
import Verif.Props.Shared
/-!
# A file of several blocks, shared by several processes (C103)

The processes of a communicator make blocks in a file, open, use and close them together, in any order. Every block is a
table of its own.
-/

set_option autoImplicit false

namespace Verif

open Spec

theorem apart_source {a a' dst : CStr} (h : Apart a dst) (hr : resolve a' = resolve a) : Apart a' dst := by
  have hk : ∀ id, fileKey a' id = fileKey a id := fun id => by rw [fileKey_eq, fileKey_eq, hr]
  exact ⟨by rw [hr]; exact h.ne, fun id => by rw [hr]; exact h.notFile id, fun id => by rw [hk]; exact h.notBelow id⟩

/-- A block of the file as the processes have it: open, or closed and stored. -/
def SlotHolds (env : Env) (n : Nat) (bf : CStr) (hs : SharedHandles) (fs : FS) (m : CStr) (s : SharedSlot) : Prop :=
  (s.live = true → ∃ H, hs m = some H ∧ (H 0).basename = mpiPath bf m ∧ HoldsAll env s.K n H fs s.A) ∧
  (s.live = false → OnDisk env s.K fs (pathJoin bf m) s.A)

/-- In either case its files are those of a block. -/
theorem SlotHolds.files {env : Env} {n : Nat} {bf : CStr} {hs : SharedHandles} {fs : FS} {m : CStr} {s : SharedSlot} (hbf : bf ≠ [])
    (h : SlotHolds env n bf hs fs m s) : ∃ b, resolve b.basename = resolve (pathJoin bf m) ∧ Holds env s.K b fs s.A := by
  cases hl : s.live with
  | true =>
    obtain ⟨H, _, h2, h0, _, b, h4, _, _, h5⟩ := h.1 hl
    refine ⟨b, ?_, h4⟩
    rw [← resolve_mpiPath bf m hbf, ← h2, (h5 0 h0).shape.base]
  | false =>
    obtain ⟨_, _, b, h1, _, h2⟩ := h.2 hl
    exact ⟨b, by rw [h1], h2⟩

/-- An operation on another block does not matter. -/
theorem SlotHolds.kept {env : Env} {n : Nat} {bf : CStr} {hs hs' : SharedHandles} {fs fs' : FS} {m dst : CStr} {s : SharedSlot} (hbf : bf ≠ [])
    (h : SlotHolds env n bf hs fs m s) (hh : hs' m = hs m) (hm : OnlyMade dst fs fs') (ha : Apart (pathJoin bf m) dst) :
    SlotHolds env n bf hs' fs' m s := by
  refine ⟨fun hl => ?_, fun hl => (h.2 hl).unmade hm ha⟩
  obtain ⟨H, h1, h2, h0, h3, b, h4, h5, h6, h7⟩ := h.1 hl
  have hr : resolve b.basename = resolve (pathJoin bf m) := by
    rw [← resolve_mpiPath bf m hbf, ← h2, (h7 0 h0).shape.base]
  exact ⟨H, hh.trans h1, h2, h0, h3, b, h4.unmade hm (apart_source ha hr), h5, h6, h7⟩

/-- What is known of the file; `fs0` is the disk at the start. -/
structure SharedHold (env : Env) (n : Nat) (bf : CStr) (fs0 : FS) (hs : SharedHandles) (fs : FS) (S : SharedBlocks) : Prop where
  tree : TreeOk fs
  dir : fs.node (resolve bf) = some .dir
  slots : ∀ m s, S m = some s → SlotHolds env n bf hs fs m s
  apart : ∀ m m', m ≠ m' → (S m).isSome = true → (S m').isSome = true → Apart (pathJoin bf m) (pathJoin bf m')
  names : ∀ m, (S m).isSome = true → (0 : Byte) ∉ mpiPath bf m ∧ (mpiPath bf m).length ≤ 8192 ∧ isMeta (pathJoin bf m) = false
  changed : ∀ k, fs.node k ≠ fs0.node k → ∃ m, (S m).isSome = true ∧
    ((∃ id, k = fileKey (pathJoin bf m) id) ∨ (k <+: resolve (pathJoin bf m) ∧ fs.node k = some .dir))

/-- There is still room for a new block. -/
theorem SharedHold.room {env : Env} {n : Nat} {bf : CStr} {fs0 fs : FS} {hs : SharedHandles} {S : SharedBlocks} (hbf : bf ≠ [])
    (h : SharedHold env n bf fs0 hs fs S) {name : CStr} (hr : Room fs0 (pathJoin bf name))
    (ha : ∀ m, m ≠ name → (S m).isSome = true → Apart (pathJoin bf m) (pathJoin bf name) ∧ Apart (pathJoin bf name) (pathJoin bf m)) :
    Room fs (pathJoin bf name) := by
  have hfile : ∀ id, fs.node (fileKey (pathJoin bf name) id) = fs0.node (fileKey (pathJoin bf name) id) ∨
      ∃ s, S name = some s := by
    intro id
    by_cases he : fs.node (fileKey (pathJoin bf name) id) = fs0.node (fileKey (pathJoin bf name) id)
    · exact Or.inl he
    · right
      obtain ⟨m, hn, h1⟩ := h.changed _ he
      by_cases hnn : m = name
      · subst hnn
        exact Option.isSome_iff_exists.mp hn
      · exfalso
        obtain ⟨a1, a2⟩ := ha m hnn hn
        rcases h1 with ⟨id', h1⟩ | ⟨h1, _⟩
        · exact a2.ne (C38_files_distinct _ _ _ _ h1).1
        · exact a2.notBelow id h1
  have hslot : ∀ s, S name = some s → (∀ id, fs.node (fileKey (pathJoin bf name) id) ≠ some .dir) ∧
      fs.node (fileKey (pathJoin bf name) .attr) = none := by
    intro s hs
    obtain ⟨b, hb, h2⟩ := (h.slots name s hs).files hbf
    have hk : ∀ id, fileKey (pathJoin bf name) id = fileKey b.basename id := fun id => by rw [fileKey_eq, fileKey_eq, hb]
    exact ⟨fun id => by rw [hk]; exact h2.notDir id, by rw [hk]; exact h2.noOld⟩
  refine ⟨?_, ?_, ?_⟩
  · intro k hk hf
    by_cases he : fs.node k = fs0.node k
    · exact hr.way k hk (by unfold IsFile at hf ⊢; rw [← he]; exact hf)
    · obtain ⟨m, hn, h1⟩ := h.changed _ he
      rcases h1 with ⟨id, rfl⟩ | ⟨_, h1⟩
      · by_cases hnn : m = name
        · subst hnn
          exact fileKey_not_prefix _ _ hk
        · exact (ha m hnn hn).1.notBelow id hk
      · obtain ⟨d, hd⟩ := hf
        rw [h1] at hd
        cases hd
  · intro id
    rcases hfile id with h1 | ⟨s, h1⟩
    · rw [h1]; exact hr.files id
    · exact (hslot s h1).1 id
  · rcases hfile .attr with h1 | ⟨s, h1⟩
    · rw [h1]; exact hr.noOld
    · exact (hslot s h1).2

/-- One block has changed, or is new. -/
theorem SharedHold.put {env : Env} {n : Nat} {bf : CStr} {fs0 fs fs' : FS} {hs hs' : SharedHandles} {S S' : SharedBlocks} {name : CStr} {s : SharedSlot}
    (hbf : bf ≠ []) (h : SharedHold env n bf fs0 hs fs S) (hm : OnlyMade (pathJoin bf name) fs fs') (hl : Later fs fs')
    (hS : S' = fun m => if m = name then some s else S m) (hh : ∀ m, m ≠ name → hs' m = hs m)
    (ha : ∀ m, m ≠ name → (S m).isSome = true → Apart (pathJoin bf m) (pathJoin bf name) ∧ Apart (pathJoin bf name) (pathJoin bf m))
    (hn : (0 : Byte) ∉ mpiPath bf name ∧ (mpiPath bf name).length ≤ 8192 ∧ isMeta (pathJoin bf name) = false)
    (hs1 : SlotHolds env n bf hs' fs' name s) : SharedHold env n bf fs0 hs' fs' S' := by
  subst hS
  refine ⟨hl.1, (hl.2 _).1 h.dir, ?_, ?_, ?_, ?_⟩
  · intro m t ht
    by_cases hnn : m = name
    · subst hnn
      rw [if_pos rfl] at ht
      injection ht with ht
      subst ht
      exact hs1
    · rw [if_neg hnn] at ht
      exact (h.slots m t ht).kept hbf (hh m hnn) hm (ha m hnn (by rw [ht]; rfl)).1
  · intro m m' hne h1 h2
    by_cases h4 : m = name
    · subst h4
      rw [if_neg (fun h => hne h.symm)] at h2
      exact (ha m' (fun h => hne h.symm) h2).2
    · rw [if_neg h4] at h1
      by_cases h5 : m' = name
      · subst h5
        exact (ha m h4 h1).1
      · rw [if_neg h5] at h2
        exact h.apart m m' hne h1 h2
  · intro m h1
    by_cases h4 : m = name
    · subst h4; exact hn
    · rw [if_neg h4] at h1; exact h.names m h1
  · intro k hk
    by_cases he : fs'.node k = fs.node k
    · rw [he] at hk
      obtain ⟨m, h1, h2⟩ := h.changed k hk
      refine ⟨m, ?_, by rw [he]; exact h2⟩
      split
      · rfl
      · exact h1
    · refine ⟨name, by simp, ?_⟩
      rcases hm k he with h4 | ⟨h4, _, h5⟩
      · exact Or.inl h4
      · exact Or.inr ⟨h4, h5⟩

/-- What creating changes. -/
theorem comm_changed_made {base : CStr} {fs fs' : FS} (h : ChangedAt base fs fs') (hl : Later fs fs') (hr : Room fs base)
    (hd : fs'.node (resolve base) = some .dir) : OnlyMade base fs fs' := by
  intro k hk
  rcases h k hk with h1 | h1
  · exact Or.inl h1
  · right
    have hdir : fs'.node k = some .dir := by
      obtain ⟨t, ht⟩ := h1
      by_cases h0 : t = []
      · subst h0
        rw [List.append_nil] at ht
        rw [ht]; exact hd
      · exact hl.1.prefix_dir k t (by rw [ht, hd]; rfl) h0
    refine ⟨h1, ?_, hdir⟩
    cases hn : fs.node k with
    | none => rfl
    | some x =>
      cases x with
      | dir => exact absurd (hdir.trans hn.symm) hk
      | file d => exact absurd ⟨d, hn⟩ (hr.way k h1)

theorem comm_next_put {S : SharedBlocks} {name : CStr} {s : SharedSlot} (hS : S name = some s) (f : SharedSlot → SharedSlot) :
    (fun m => if m = name then (S name).map f else S m) = fun m => if m = name then some (f s) else S m := by
  rw [hS]
  rfl

/-- **C103, one operation.** -/
theorem comm_step {env : Env} {n : Nat} {bf : CStr} {fs0 : FS} {hs : SharedHandles} {S : SharedBlocks} {w : World}
    (hfmt : FmtOk env) (hchunk : env.chunkBytes < 18446744073709551616) (hn : 0 < n ∧ n < 2147483648) (hbf : bf ≠ [])
    (h : SharedHold env n bf fs0 hs w.fs S) (hnf : w.faults = noFaults) (op : CommOp) (hl : S.legal env n bf fs0 op) :
    (runCommOp env n bf hs op).Ensures faultless w fun x w' => S.answers env n op x.1 ∧ w'.faults = noFaults ∧
      SharedHold env n bf fs0 x.2 w'.fs (S.next env n op) := by
  have hap : ∀ name, (S name).isSome = true → ∀ m, m ≠ name → (S m).isSome = true →
      Apart (pathJoin bf m) (pathJoin bf name) ∧ Apart (pathJoin bf name) (pathJoin bf m) :=
    fun name h1 m hne h2 => ⟨h.apart m name hne h2 h1, h.apart name m (fun e => hne e.symm) h1 h2⟩
  cases op with
  | create name dt nmemb sizes =>
    obtain ⟨hm, hr, ha⟩ := hl
    have hroom := h.room hbf hr ha
    have hi := hm.item
    have hit : itemsize env.m dt = ((itemsize env.m dt).toNat : Int) := by omega
    unfold runCommOp
    apply Phases.ensures_bind
    refine Phases.ensures_mono (C71_created env bf name dt nmemb sizes n (itemsize env.m dt).toNat nmemb w hbf hm.noZero hm.length hm.notMeta hm.noBlank hn
      hnf h.tree h.dir hroom hfmt hm.dtype hit (by omega) rfl hm.memb hm.rowBytes hm.buffer hchunk hm.nfile hm.size hm.bytes) ?_
    rintro ⟨c, o⟩ w1 ⟨H, rfl, h1, h2, h3, h4, h5, h6⟩
    have hslot : SlotHolds env n bf (fun m => if m = name then some H else hs m) w1.fs name (SharedSlot.fresh env.m dt nmemb sizes) :=
      ⟨fun _ => ⟨H, if_pos rfl, h4, h2⟩, fun hh => (nomatch hh)⟩
    have hdir : w1.fs.node (resolve (pathJoin bf name)) = some .dir := by
      obtain ⟨b, hb, hh⟩ := hslot.files hbf
      rw [← hb]
      exact hh.dir.dir
    exact Phases.ensures_pure ⟨h1, h3, h.put hbf (comm_changed_made h6 h5 hroom hdir) h5 rfl (fun m hne => if_neg hne) ha
      ⟨hm.noZero, hm.length, hm.notMeta⟩ hslot⟩
  | openIt name =>
    obtain ⟨s, hS, hlive⟩ := hl
    have hsome : (S name).isSome = true := by rw [hS]; rfl
    have hnm := h.names name hsome
    obtain ⟨H, w1, e1, g1, g2, g3, g4⟩ := C71_opened env s.K s.A bf name n w hbf hnm.1 hnm.2.1 hn hnf ((h.slots name s hS).2 hlive)
    unfold runCommOp
    apply Phases.ensures_bind
    apply Phases.ensures_alone e1
    refine Phases.ensures_pure ⟨fun _ _ => rfl, g2, ?_⟩
    dsimp only
    rw [g1] at g3 ⊢
    exact h.put hbf (OnlyMade.refl _ _) (Later.refl h.tree) (comm_next_put hS _) (fun m hne => if_neg hne) (hap name hsome) hnm
      ⟨fun _ => ⟨H, if_pos rfl, g4, g3⟩, fun hh => (nomatch hh)⟩
  | use name op =>
    obtain ⟨s, hS, hlive, hleg, hp⟩ := hl
    have hsome : (S name).isSome = true := by rw [hS]; rfl
    have hnm := h.names name hsome
    obtain ⟨H, k1, k2, k3⟩ := (h.slots name s hS).1 hlive
    unfold runCommOp
    simp only [k1]
    apply Phases.ensures_bind
    refine Phases.ensures_mono (mop_step k3 hnf op hleg) fun x w1 d => ?_
    have hout := d.out
    rw [k2] at hout
    have hmade := OnlyMade.of_outside (hout.renamed (resolve_mpiPath bf name hbf))
    have hh := d.holds
    rw [hp] at hh
    exact Phases.ensures_pure ⟨⟨s, hS, d.ans⟩, d.faults.trans hnf, h.put hbf hmade (d.tree h.tree) (comm_next_put hS _) (fun m hne => if_neg hne)
      (hap name hsome) hnm ⟨fun _ => ⟨x.2, if_pos rfl, d.base.trans k2, hh⟩, fun hh => absurd (hlive.symm.trans hh) (by decide)⟩⟩
  | close name =>
    obtain ⟨s, hS, hlive⟩ := hl
    have hsome : (S name).isSome = true := by rw [hS]; rfl
    have hnm := h.names name hsome
    obtain ⟨H, k1, k2, k3⟩ := (h.slots name s hS).1 hlive
    obtain ⟨w1, e1, g1, g2, g3, g4⟩ := C71_closed env s.K s.A bf name n H w hbf hnm.2.1 hnm.2.2 hnf k3 k2
    unfold runCommOp
    simp only [k1]
    apply Phases.ensures_bind
    apply Phases.ensures_alone e1
    exact Phases.ensures_pure ⟨fun _ _ => rfl, g1, h.put hbf (OnlyMade.of_outside g3) (g4 h.tree) (comm_next_put hS _) (fun m hne => if_neg hne)
      (hap name hsome) hnm ⟨fun hh => (nomatch hh), fun _ => g2⟩⟩

/-- Any history. -/
theorem comm_history (env : Env) (n : Nat) (bf : CStr) (fs0 : FS) (hfmt : FmtOk env) (hchunk : env.chunkBytes < 18446744073709551616)
    (hn : 0 < n ∧ n < 2147483648) (hbf : bf ≠ []) (ops : List CommOp) : ∀ (hs : SharedHandles) (S : SharedBlocks) (w : World),
    SharedHold env n bf fs0 hs w.fs S → w.faults = noFaults → S.allLegal env n bf fs0 ops →
    (runCommOps env n bf hs ops).Ensures faultless w fun x w' => S.allAnswered env n ops x.1 ∧ w'.faults = noFaults ∧
      SharedHold env n bf fs0 x.2 w'.fs (S.after env n ops) := by
  induction ops with
  | nil => intro hs S w h hnf _; exact Phases.ensures_pure ⟨trivial, hnf, h⟩
  | cons op ops ih =>
    intro hs S w h hnf hl
    unfold runCommOps
    apply Phases.ensures_bind
    refine Phases.ensures_mono (comm_step hfmt hchunk hn hbf h hnf op hl.1) ?_
    rintro x w1 ⟨g1, g2, g3⟩
    apply Phases.ensures_bind
    refine Phases.ensures_mono (ih x.2 _ w1 g3 g2 hl.2) ?_
    rintro y w2 ⟨k1, k2, k3⟩
    exact Phases.ensures_pure ⟨⟨g1, k1⟩, k2, k3⟩

/-- **C103** (partial: restrictions of C71 on the operations, no faults). `n` processes have a file (a directory that exists, with whatever is in it). Together they make blocks in it, open
them, use them — writing, reading, growing, setting attributes, flushing — and close them, in any order. As long as no
block is put in the directory of another one or inside one of its files, on every process and in every interleaving every
operation succeeds and is answered according to what was done to that block and to no other, and no execution hangs. At the
end every block that is closed is stored with what was done to it. -/
theorem C103_blocks_partial (env : Env) (n : Nat) (bf : CStr) (ops : List CommOp) (hs : SharedHandles) (w : World) (hfmt : FmtOk env)
    (hchunk : env.chunkBytes < 18446744073709551616) (hn : 0 < n ∧ n < 2147483648) (hnf : w.faults = noFaults) (ht : TreeOk w.fs)
    (hbf : bf ≠ []) (hd : w.fs.node (resolve bf) = some .dir) (hl : SharedBlocks.allLegal env n bf w.fs (fun _ => none) ops) :
    (runCommOps env n bf hs ops).Ensures faultless w fun x w' => SharedBlocks.allAnswered env n (fun _ => none) ops x.1 ∧
      ∀ name s, SharedBlocks.after env n (fun _ => none) ops name = some s → s.live = false → OnDisk env s.K w'.fs (pathJoin bf name) s.A := by
  refine Phases.ensures_mono (comm_history env n bf w.fs hfmt hchunk hn hbf ops hs (fun _ => none) w
    ⟨ht, hd, nofun, nofun, nofun, fun _ h => absurd rfl h⟩ hnf hl) ?_
  rintro x w' ⟨h1, _, h2⟩
  exact ⟨h1, fun name s hs hlive => (h2.slots name s hs).2 hlive⟩

theorem comm_plain (env : Env) (n : Nat) (bf : CStr) (fs : FS) (hbf : bf ≠ []) (ht : TreeOk fs) (he : EmptyDir fs bf) (ops : List CommOp) :
    ∀ S : SharedBlocks, (∀ m, (S m).isSome = true → PlainBlockName m) → S.allPlainLegal env n bf ops → S.allLegal env n bf fs ops := by
  induction ops with
  | nil => intro S _ _; trivial
  | cons op ops ih =>
    intro S hS hl
    refine ⟨?_, ih _ ?_ hl.2⟩
    · cases op with
      | create name dt nmemb sizes =>
        exact ⟨hl.1.1, empty_room hbf ht he hl.1.2, fun m hne hm => ⟨plain_apart hbf (hS m hm) hl.1.2 hne,
          plain_apart hbf hl.1.2 (hS m hm) fun h => hne h.symm⟩⟩
      | openIt name => exact hl.1
      | use name op => exact hl.1
      | close name => exact hl.1
    · intro m hm
      cases op with
      | create name dt nmemb sizes =>
        simp only [SharedBlocks.next] at hm
        by_cases hmn : m = name
        · subst hmn; exact hl.1.2
        · rw [if_neg hmn] at hm; exact hS m hm
      | openIt name =>
        obtain ⟨s, h1, _⟩ := hl.1
        simp only [SharedBlocks.next] at hm
        by_cases hmn : m = name
        · subst hmn; exact hS m (by rw [h1]; rfl)
        · rw [if_neg hmn] at hm; exact hS m hm
      | use name op =>
        obtain ⟨s, h1, _⟩ := hl.1
        simp only [SharedBlocks.next] at hm
        by_cases hmn : m = name
        · subst hmn; exact hS m (by rw [h1]; rfl)
        · rw [if_neg hmn] at hm; exact hS m hm
      | close name =>
        obtain ⟨s, h1, _⟩ := hl.1
        simp only [SharedBlocks.next] at hm
        by_cases hmn : m = name
        · subst hmn; exact hS m (by rw [h1]; rfl)
        · rw [if_neg hmn] at hm; exact hS m hm

/-- **C103, a file that was made new.** The same for blocks with plain names in an empty directory, where names cannot get in
each other's way. -/
theorem C103_new_file_partial (env : Env) (n : Nat) (bf : CStr) (ops : List CommOp) (hs : SharedHandles) (w : World) (hfmt : FmtOk env)
    (hchunk : env.chunkBytes < 18446744073709551616) (hn : 0 < n ∧ n < 2147483648) (hnf : w.faults = noFaults) (ht : TreeOk w.fs)
    (hbf : bf ≠ []) (he : EmptyDir w.fs bf) (hl : SharedBlocks.allPlainLegal env n bf (fun _ => none) ops) :
    (runCommOps env n bf hs ops).Ensures faultless w fun x w' => SharedBlocks.allAnswered env n (fun _ => none) ops x.1 ∧
      ∀ name s, SharedBlocks.after env n (fun _ => none) ops name = some s → s.live = false → OnDisk env s.K w'.fs (pathJoin bf name) s.A :=
  C103_blocks_partial env n bf ops hs w hfmt hchunk hn hnf ht hbf he.dir (comm_plain env n bf w.fs hbf ht he ops _ (fun _ h => (nomatch h)) hl)

/-! ### The example -/

/-- Three processes make `a` and `b/c` in the empty directory `d/e`, write five rows to `a`, close both, and open `b/c` again and add
a file. -/
def exCommOps : List CommOp :=
  [.create b!"a" b!"i4" 1 [2, 0, 3], .create b!"b/c" b!"i4" 1 [2, 0, 3], .use b!"a" (.write 0 exArrs (fun _ => exMem) (fun _ => 8) 2 1),
    .close b!"b/c", .close b!"a", .openIt b!"b/c", .use b!"b/c" (.grow [4])]

theorem exCommOps_legal : SharedBlocks.allPlainLegal exEnv 3 b!"d/e" (fun _ => none) exCommOps := by
  have hm : ∀ name, name = b!"a" ∨ name = b!"b/c" → MakeableAll exEnv b!"d/e" name b!"i4" 1 [2, 0, 3] := by
    rintro name (rfl | rfl) <;>
    exact ⟨by decide, by decide, by decide, by decide, exB_good.dt, by decide, by decide, by decide, by decide, by decide, by decide, by decide⟩
  refine ⟨⟨hm _ (Or.inl rfl), exPlainBlock [b!"a"] (Or.inl rfl)⟩, ⟨hm _ (Or.inr rfl), exPlainBlock [b!"b", b!"c"] (Or.inr rfl)⟩,
    ⟨_, rfl, rfl, ⟨by decide, by decide, by decide, ?_⟩, rfl⟩, ⟨_, rfl, rfl⟩, ⟨_, rfl, rfl⟩, ⟨_, rfl, rfl⟩,
    ⟨_, rfl, rfl, ⟨by decide, by decide, by decide⟩, rfl⟩, trivial⟩
  intro r hr
  match r, hr with
  | 0, _ => exact ⟨⟨by decide, by decide, by decide, fun _ => exSrc_array⟩, fun h => absurd h (by decide), by decide +kernel⟩
  | 1, _ => exact ⟨⟨by decide, by decide, by decide, fun h => absurd h (by decide)⟩, fun h => absurd h (by decide), by decide⟩
  | 2, _ => exact ⟨⟨by decide, by decide, by decide, fun _ => exPair_array⟩, fun h => absurd h (by decide), by decide +kernel⟩

example : (runCommOps exEnv 3 b!"d/e" (fun _ => none) exCommOps).Ensures faultless exTreeWorld fun x w' =>
    SharedBlocks.allAnswered exEnv 3 (fun _ => none) exCommOps x.1 ∧
      ∀ name s, SharedBlocks.after exEnv 3 (fun _ => none) exCommOps name = some s → s.live = false →
        OnDisk exEnv s.K w'.fs (pathJoin b!"d/e" name) s.A :=
  C103_new_file_partial exEnv 3 b!"d/e" exCommOps _ exTreeWorld exFmt (by decide) (by decide) rfl exTree_ok (by decide) exBlkTree_empty exCommOps_legal

/-- At the end `a` is closed and its row 4 is the second row of process 2; `b/c` is open and has four files. -/
example : ((SharedBlocks.after exEnv 3 (fun _ => none) exCommOps b!"a").map fun s => (s.live, s.A.size, s.A.rows 4)) =
      some (false, 5, some [11, 0, 0, 0]) ∧
    ((SharedBlocks.after exEnv 3 (fun _ => none) exCommOps b!"b/c").map fun s => (s.live, s.A.nfile, s.A.rows 4)) =
      some (true, 4, none) := by decide +kernel

end Verif
