import Verif.Spec.Blocks
import Verif.Proof.Format
import Verif.Proof.CopyMay
import Verif.Props.Copy
import Verif.Props.Format
/-!
# A file of several blocks
-/

set_option autoImplicit false

namespace Verif

open Spec

variable {env : Env} {K : Kind} {bb : Block} {H : Holey} {w : World}

theorem fopen_r_touches (base path : CStr) : Touches base (fopen path .r) := by
  intro w
  apply wlp_of_wpc
  exact wpc_fopen_r _ _ _ _ (fun _ w' h1 _ _ _ => by rw [h1]; exact SameOutside.refl _ _)
    (fun w' h1 _ => by rw [h1]; exact SameOutside.refl _ _)

theorem readAttrsV1_touches (env : Env) (s : AttrSet) (base b : CStr) : Touches b (readAttrsV1 env s base) := by
  unfold readAttrsV1
  refine Touches.bind (fopen_r_touches _ _) fun b => Touches.ite ?_ (Touches.pure _)
  refine Touches.bind (getFS_touches _) fun fs => Touches.bind (freadAt_touches _ _ _ _) fun bs => ?_
  refine Touches.bind (Touches.lift _) ?_
  rintro ⟨rc, s⟩
  exact Touches.pure _

theorem readAttrsV2_touches (env : Env) (s : AttrSet) (base b : CStr) : Touches b (readAttrsV2 env s base) := by
  unfold readAttrsV2
  refine Touches.bind (fopen_r_touches _ _) fun b => Touches.ite ?_ (Touches.pure _)
  refine Touches.bind (getFS_touches _) fun fs => Touches.bind (freadAt_touches _ _ _ _) fun bs => ?_
  refine Touches.ite (Touches.pure _) (Touches.bind (Touches.lift _) ?_)
  rintro ⟨rc, s⟩
  exact Touches.pure _

theorem blockOpen_touches (env : Env) (base b : CStr) : Touches b (blockOpen env base) := by
  unfold blockOpen
  refine Touches.bind (readAttrsV1_touches _ _ _ _) ?_
  rintro ⟨rc, s⟩
  refine Touches.ite (Touches.pure _) (Touches.bind (readAttrsV2_touches _ _ _ _) ?_)
  rintro ⟨rc, s⟩
  refine Touches.ite (Touches.pure _) (Touches.ite ?_ (Touches.pure _))
  refine Touches.bind (fopen_r_touches _ _) fun b => Touches.ite ?_ (Touches.pure _)
  refine Touches.bind (getFS_touches _) fun fs => Touches.bind (freadAt_touches _ _ _ _) fun bs => ?_
  split
  · exact Touches.pure _
  · exact Touches.ub
  · exact Touches.pure _

/-- An operation on a block changes nothing outside its files. -/
theorem runBOp_touches (env : Env) (bb : Block) (op : BOp) : Touches bb.basename (runBOp env bb op) := by
  cases op with
  | write p a mem sw =>
    refine Touches.bind (Touches.lift _) ?_
    rintro ⟨rc, ptr⟩
    exact Touches.ite (Touches.pure _) (Touches.bind (blockWrite_touches _ _ _ _ _ _) fun _ => Touches.pure _)
  | read p a mem sw =>
    refine Touches.bind (Touches.lift _) ?_
    rintro ⟨rc, ptr⟩
    exact Touches.ite (Touches.pure _) (Touches.bind (blockRead_touches _ _ _ _ _ _) fun _ => Touches.pure _)
  | grow sizes => exact Touches.bind (blockGrow_touches _ _) fun _ => Touches.pure _
  | attr op => exact Touches.bind (Touches.lift _) fun _ => Touches.pure _
  | flush => exact Touches.bind (blockFlush_touches _ _) fun _ => Touches.pure _
  | reopen =>
    exact Touches.bind (Touches.bind (blockClose_touches _ _) fun _ => Touches.bind (blockOpen_touches _ _ _) fun _ =>
      Touches.pure _) fun _ => Touches.pure _

/-- What happens outside the block directory does not matter. -/
theorem HoldsF.congr {dt : CStr} {fs fs' : FS} (h : HoldsF env K dt bb fs H)
    (hd : fs'.node (resolve bb.basename) = fs.node (resolve bb.basename))
    (hf : ∀ id, fs'.node (fileKey bb.basename id) = fs.node (fileKey bb.basename id)) : HoldsF env K dt bb fs' H := by
  have hrow : ∀ r, row env.m fs' bb r = row env.m fs bb r := by
    intro r
    unfold row
    rw [bytes_congr (hf _)]
  refine ⟨⟨h.holey.holds.congr hd hf, h.holey.sizes, ?_, ?_⟩, ?_, ?_, h.dtype, ?_⟩
  · intro r hr
    rw [← h.holey.reach r hr]
    unfold Stored
    rw [hrow]
  · intro r hr hn
    rw [hrow]
    exact h.holey.zeros r hr hn
  · intro f hl
    rw [bytes_congr (hf _)]
    exact h.fit f hl
  · intro hc
    rw [hf]
    exact h.header hc
  · intro hp
    rw [hf]
    exact h.attrs hp

/-- What is known of the blocks of a file while a program uses them; `fs0` is the disk at the start. -/
structure BlocksHold (env : Env) (bf : CStr) (fs0 : FS) (hs : OpenBlocks) (fs : FS) (S : Blocks) : Prop where
  tree : TreeOk fs
  dir : fs.node (resolve bf) = some .dir
  slots : ∀ n s, S n = some s → ∃ b, hs n = some b ∧ b.basename = pathJoin bf n ∧ HoldsF env s.K s.dt b fs s.H ∧
    IsFile fs (fileKey (pathJoin bf n) .header)
  apart : ∀ n n', n ≠ n' → (S n).isSome = true → (S n').isSome = true → Apart (pathJoin bf n) (pathJoin bf n')
  length : ∀ n, (S n).isSome = true → (pathJoin bf n).length ≤ 8192
  changed : ∀ k, fs.node k ≠ fs0.node k → ∃ n, (S n).isSome = true ∧
    ((∃ id, k = fileKey (pathJoin bf n) id) ∨ (k <+: resolve (pathJoin bf n) ∧ fs.node k = some .dir))

/-- None of the files of a block is a directory. -/
theorem Spec.Holds.notDir {A : Content} {fs : FS} (h : Holds env K bb fs A) (id : FileId) : fs.node (fileKey bb.basename id) ≠ some .dir := by
  cases id with
  | header => exact h.dir.header
  | attr => rw [h.noOld]; simp
  | attrV2 => exact h.dir.attr
  | data f => exact h.noDirs f

theorem fileKey_not_prefix (p : CStr) (id : FileId) : ¬ fileKey p id <+: resolve p := by
  intro h
  have := h.length_le
  rw [fileKey_eq] at this
  simp at this
  omega

/-- There is still room for a new block. -/
theorem BlocksHold.room {bf : CStr} {fs0 fs : FS} {hs : OpenBlocks} {S : Blocks} (h : BlocksHold env bf fs0 hs fs S) {name : CStr}
    (hr : Room fs0 (pathJoin bf name))
    (ha : ∀ n, n ≠ name → (S n).isSome = true → Apart (pathJoin bf n) (pathJoin bf name) ∧ Apart (pathJoin bf name) (pathJoin bf n)) :
    Room fs (pathJoin bf name) := by
  -- what became of a file of the new block
  have hfile : ∀ id, fs.node (fileKey (pathJoin bf name) id) = fs0.node (fileKey (pathJoin bf name) id) ∨
      ∃ s, S name = some s := by
    intro id
    by_cases he : fs.node (fileKey (pathJoin bf name) id) = fs0.node (fileKey (pathJoin bf name) id)
    · exact Or.inl he
    · right
      obtain ⟨n, hn, h1⟩ := h.changed _ he
      by_cases hnn : n = name
      · subst hnn
        exact Option.isSome_iff_exists.mp hn
      · exfalso
        obtain ⟨a1, a2⟩ := ha n hnn hn
        rcases h1 with ⟨id', h1⟩ | ⟨h1, _⟩
        · exact a2.ne (C38_files_distinct _ _ _ _ h1).1
        · exact a2.notBelow id h1
  refine ⟨?_, ?_, ?_⟩
  · intro k hk hf
    by_cases he : fs.node k = fs0.node k
    · exact hr.way k hk (by unfold IsFile at hf ⊢; rw [← he]; exact hf)
    · obtain ⟨n, hn, h1⟩ := h.changed _ he
      rcases h1 with ⟨id, rfl⟩ | ⟨_, h1⟩
      · by_cases hnn : n = name
        · subst hnn
          exact fileKey_not_prefix _ _ hk
        · exact (ha n hnn hn).1.notBelow id hk
      · obtain ⟨d, hd⟩ := hf
        rw [h1] at hd
        cases hd
  · intro id
    rcases hfile id with h1 | ⟨s, h1⟩
    · rw [h1]; exact hr.files id
    · obtain ⟨b, _, hb, h2, _⟩ := h.slots name s h1
      rw [← hb]
      exact h2.holey.holds.notDir id
  · rcases hfile .attr with h1 | ⟨s, h1⟩
    · rw [h1]; exact hr.noOld
    · obtain ⟨b, _, hb, h2, _⟩ := h.slots name s h1
      rw [← hb]
      exact h2.holey.holds.noOld

/-- A new block, as a slot. -/
theorem fresh_slot {bf name dt : CStr} {nmemb : Nat} {sizes : List Nat} {w' : World} {b : Block} (hfmt : FmtOk env)
    (hchunk : env.chunkBytes < 18446744073709551616) (hnf : w.faults = noFaults) (hm : Makeable env bf name dt nmemb sizes)
    (hroom : Room w.fs (pathJoin bf name)) (h : createBlock env bf name (some dt) nmemb sizes w = .ok (0, some b) w') :
    HoldsF env (Slot.fresh env.m dt nmemb sizes).K (Slot.fresh env.m dt nmemb sizes).dt b w'.fs (Slot.fresh env.m dt nmemb sizes).H ∧
      b.basename = pathJoin bf name ∧ w'.faults = noFaults := by
  have hi := hm.item
  have hit : itemsize env.m (dtypeNormalize env.m dt) = ((itemsize env.m (dtypeNormalize env.m dt)).toNat : Int) := by omega
  obtain ⟨h1, h2⟩ := fresh_holds hfmt hnf hm.length hm.notMeta hm.dtype hit (by omega) rfl hm.memb hm.rowBytes hm.buffer hchunk hm.nfile
    hm.size hm.bytes h (fun d hd => hroom.way _ (List.prefix_refl _) ⟨d, hd⟩) hroom.noOld (fun f => hroom.files _)
  have hns : NoSilent w.faults := by rw [hnf]; intro i n; simp [noFaults]
  obtain ⟨h3, h4, h5⟩ := fresh_empty hns hm.length hm.notMeta h
  obtain ⟨h6, h7, h8, h9⟩ := fresh_header hns hm.length hm.notMeta h
  have hfit : FilesFit env.m b w'.fs := by
    intro f hf
    rw [h3] at hf
    unfold FS.bytes
    rw [h4, h5 f hf]
    exact ⟨Nat.zero_le _, Nat.dvd_zero _⟩
  exact ⟨⟨holdsH_fresh h1 h3 (by rw [h4]; exact h5), hfit, h6, h7,
    fun _ => ⟨[], h9, [], ⟨fun n v => ⟨fun h => (nomatch (h : none = some v)), fun ⟨_, h⟩ => (nomatch h)⟩, nofun⟩,
      List.Pairwise.nil, rfl⟩⟩, h4, h2⟩

/-- One operation. -/
theorem BlocksHold.step {bf : CStr} {fs0 : FS} {hs : OpenBlocks} {S : Blocks} (h : BlocksHold env bf fs0 hs w.fs S)
    (hfmt : FmtOk env) (hchunk : env.chunkBytes < 18446744073709551616) (hnf : w.faults = noFaults) (hbf : bf ≠ []) (op : FileOp)
    (hl : S.legal env bf fs0 op) :
    ∃ x hs' w', runFileOp env bf hs op w = .ok (x, hs') w' ∧ w'.faults = noFaults ∧ S.answers env op x ∧
      BlocksHold env bf fs0 hs' w'.fs (S.next env op) := by
  cases op with
  | create name dt nmemb sizes =>
    obtain ⟨hm, hr, ha⟩ := hl
    have hroom := h.room hr ha
    obtain ⟨w', e⟩ := createBlock_succeeds (env := env) (dt := dt) (nmemb := nmemb) (fsize := sizes) hnf hbf h.dir hm.length hm.notMeta hm.noBlank hroom
    obtain ⟨h1, h2, h3⟩ := fresh_slot hfmt hchunk hnf hm hroom e
    obtain ⟨l1, l2, l3⟩ := wlp_ok (createBlock_out env bf name (some dt) nmemb sizes w h.tree hbf hm.length) e
    obtain ⟨_, hmade, _⟩ := wpc_ok (createBlock_may (env := env) (dt := dt) (nmemb := nmemb) (fsize := sizes) h.tree hbf hm.length hm.notMeta) e
    refine ⟨⟨0, env.junk, none⟩, fun n => if n = name then some (freshBlock env (pathJoin bf name) dt nmemb sizes) else hs n, w', ?_, h3, rfl,
      l1.1, (l1.2 _).1 h.dir, ?_, ?_, ?_, ?_⟩
    · unfold runFileOp
      simp only [bind, M.bind]
      rw [e]
      rfl
    · intro n s hn
      simp only [Blocks.next] at hn
      by_cases hnn : n = name
      · subst hnn
        rw [if_pos rfl] at hn
        injection hn with hn
        subst hn
        exact ⟨_, if_pos rfl, h2, h1, (l3 rfl).2 hm.notMeta⟩
      · rw [if_neg hnn] at hn
        obtain ⟨b, k1, k2, k3, k4⟩ := h.slots n s hn
        have hap := (ha n hnn (by rw [hn]; rfl)).1
        rw [← k2] at hap
        have hsrc := hmade.source hap k3.holey.holds.dir.dir
        exact ⟨b, by rw [if_neg hnn]; exact k1, k2, k3.congr hsrc.1 hsrc.2, (l1.2 _).2 k4⟩
    · intro n n' hne hn hn'
      simp only [Blocks.next] at hn hn'
      by_cases h4 : n = name
      · subst h4
        rw [if_neg (fun h => hne h.symm)] at hn'
        exact (ha n' (fun h => hne h.symm) hn').2
      · rw [if_neg h4] at hn
        by_cases h5 : n' = name
        · subst h5
          exact (ha n h4 hn).1
        · rw [if_neg h5] at hn'
          exact h.apart n n' hne hn hn'
    · intro n hn
      simp only [Blocks.next] at hn
      by_cases hnn : n = name
      · subst hnn; exact hm.length
      · rw [if_neg hnn] at hn; exact h.length n hn
    · intro k hk
      by_cases he : w'.fs.node k = w.fs.node k
      · rw [he] at hk
        obtain ⟨n, hn, h4⟩ := h.changed k hk
        refine ⟨n, ?_, by rw [he]; exact h4⟩
        simp only [Blocks.next]
        split
        · rfl
        · exact hn
      · refine ⟨name, by simp [Blocks.next], ?_⟩
        rcases hmade k he with h4 | ⟨h4, _, h5⟩
        · exact Or.inl h4
        · exact Or.inr ⟨h4, h5⟩
  | use name op =>
    obtain ⟨s, hS, hl⟩ := hl
    obtain ⟨b, k1, k2, k3, k4⟩ := h.slots name s hS
    obtain ⟨x, bb', w', e, h1, h2, h3, h4, _⟩ := k3.step hnf op hl
    have hlater := wlp_ok (runBOp_keeps env b op w h.tree) e
    have hout := wlp_ok (runBOp_touches env b op w) e
    have hsome : ∀ n, (S.next env (.use name op) n).isSome = true → (S n).isSome = true := by
      intro n hn
      simp only [Blocks.next] at hn
      by_cases hnn : n = name
      · subst hnn; rw [hS]; rfl
      · rw [if_neg hnn] at hn; exact hn
    refine ⟨x, fun n => if n = name then some bb' else hs n, w', ?_, h1, ⟨s, hS, h3⟩, hlater.1, (hlater.2 _).1 h.dir, ?_, ?_, ?_, ?_⟩
    · unfold runFileOp
      simp only [bind]
      rw [k1]
      show M.bind (runBOp env b op) _ w = _
      unfold M.bind
      rw [e]
      rfl
    · intro n s' hn
      simp only [Blocks.next] at hn
      by_cases hnn : n = name
      · subst hnn
        rw [if_pos rfl, hS] at hn
        injection hn with hn
        subst hn
        exact ⟨bb', if_pos rfl, h2.trans k2, h4, (hlater.2 _).2 k4⟩
      · rw [if_neg hnn] at hn
        obtain ⟨b', m1, m2, m3, m4⟩ := h.slots n s' hn
        have hap := h.apart n name hnn (by rw [hn]; rfl) (by rw [hS]; rfl)
        rw [← m2, ← k2] at hap
        have hsrc := hap.outside hout
        exact ⟨b', by rw [if_neg hnn]; exact m1, m2, m3.congr hsrc.1 hsrc.2, (hlater.2 _).2 m4⟩
    · exact fun n n' hne hn hn' => h.apart n n' hne (hsome n hn) (hsome n' hn')
    · exact fun n hn => h.length n (hsome n hn)
    · intro k hk
      have hsome' : ∀ n, (S n).isSome = true → (S.next env (.use name op) n).isSome = true := by
        intro n hn
        simp only [Blocks.next]
        by_cases hnn : n = name
        · subst hnn; rw [if_pos rfl, hS]; rfl
        · rw [if_neg hnn]; exact hn
      by_cases he : w'.fs.node k = w.fs.node k
      · rw [he] at hk
        obtain ⟨n, hn, h5⟩ := h.changed k hk
        exact ⟨n, hsome' n hn, by rw [he]; exact h5⟩
      · refine ⟨name, hsome' name (by rw [hS]; rfl), Or.inl ?_⟩
        rcases Classical.em (∃ id, k = fileKey b.basename id) with ⟨id, h5⟩ | h5
        · exact ⟨id, by rw [← k2]; exact h5⟩
        · exact absurd (hout k fun id h6 => h5 ⟨id, h6⟩) he

end Verif
