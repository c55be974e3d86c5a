import Verif.Spec.BlocksMay
import Verif.Proof.Blocks
import Verif.Proof.CopyMay
import Verif.Props.Durable
/-!
# A file of several blocks, with failures and kills
-/

set_option autoImplicit false

namespace Verif

open Spec

variable {env : Env} {K : Kind} {bb : Block} {S : Durable} {w : World}

/-- What happens outside the block directory does not matter. -/
theorem Spec.HoldsD.congr {fs fs' : FS} (h : HoldsD env K bb fs S)
    (hd : fs'.node (resolve bb.basename) = fs.node (resolve bb.basename))
    (hf : ∀ id, fs'.node (fileKey bb.basename id) = fs.node (fileKey bb.basename id)) : HoldsD env K bb fs' S := by
  have hrow : ∀ r, row env.m fs' bb r = row env.m fs bb r := by
    intro r
    unfold row
    rw [bytes_congr (hf _)]
  have hsays : ∀ b : Block, b.basename = bb.basename → HeaderSays fs b → HeaderSays fs' b := by
    intro b hb h
    unfold HeaderSays at h ⊢
    rw [hb] at h ⊢
    rw [hf, bytes_congr (hf _)]
    exact h
  refine ⟨h.ok, h.kind, h.size, h.nfile, h.savable, h.attrs, h.pending, h.tame, ?_, fun e => ⟨(h.clean e).1, hsays _ rfl (h.clean e).2⟩, ?_, ?_, ?_, ?_, ?_, ?_⟩
  · intro e
    obtain ⟨s1, s2, k1, k2, k3, k4⟩ := h.saved e
    exact ⟨s1, s2, by rw [readsV1_congr (hf _)]; exact k1, by rw [readsV2_congr (hf _)]; exact k2, k3, k4⟩
  · intro n k e
    obtain ⟨h1, h2, ck, h3, h4, h5⟩ := h.header n k e
    exact ⟨h1, h2, ck, h3, h4, hsays _ rfl h5⟩
  · exact ⟨by rw [hd]; exact h.dir.dir, by rw [hf]; exact h.dir.header, by rw [hf]; exact h.dir.attr⟩
  · rw [hf]; exact h.noOld
  · intro f; rw [hf]; exact h.noDirs f
  · intro e f hl
    have := h.data e f hl
    unfold IsFile at this ⊢
    rw [hf]
    exact this
  · intro r bytes hr
    obtain ⟨h1, h2, h3⟩ := h.rows r bytes hr
    refine ⟨h1, by rw [hrow]; exact h2, ?_⟩
    unfold Stored at h3 ⊢
    rw [hrow]
    exact h3

theorem Spec.HoldsD.clear {fs : FS} (h : HoldsD env K bb fs S) : Clear fs bb.basename :=
  ⟨fun d hd => (by rw [h.dir.dir] at hd; cases hd), h.noOld, h.noDirs⟩

/-- Making a block leaves room for others. -/
theorem Spec.Clear.other {src dst : CStr} {fs fs' : FS} (h : Clear fs src) (hm : OnlyMade dst fs fs') (ha : Apart src dst) : Clear fs' src := by
  have hfile : ∀ id, fs'.node (fileKey src id) = fs.node (fileKey src id) := by
    intro id
    by_cases he : fs'.node (fileKey src id) = fs.node (fileKey src id)
    · exact he
    · rcases hm _ he with ⟨id', h1⟩ | ⟨h1, _, _⟩
      · exact absurd (C38_files_distinct _ _ _ _ h1).1 ha.ne
      · exact absurd h1 (ha.notBelow id)
  refine ⟨?_, by rw [hfile]; exact h.noOld, fun f => by rw [hfile]; exact h.data f⟩
  intro d hd
  by_cases he : fs'.node (resolve src) = fs.node (resolve src)
  · rw [he] at hd; exact h.way d hd
  · rcases hm _ he with ⟨id, h1⟩ | ⟨_, _, h1⟩
    · exact absurd h1 (ha.notFile id)
    · rw [h1] at hd; cases hd

/-- And for itself. -/
theorem createBlock_clear {bf name dt : CStr} {nmemb : Int} {sizes : List Nat} (hlen : (pathJoin bf name).length ≤ 8192)
    (hmeta : isMeta (pathJoin bf name) = false) (h : Clear w.fs (pathJoin bf name)) :
    wpc (createBlock env bf name (some dt) nmemb sizes) w (fun _ w' => Clear w'.fs (pathJoin bf name)) (fun _ => True) := by
  unfold createBlock
  rw [wpc_bind]
  refine wpc_mono (wpc_mksubdirR_depth bf name w) ?_ (fun _ _ => trivial)
  rintro rc w1 ⟨_, h1, _, _, h6⟩
  rw [strdup_short (pathJoin_length hlen)] at h6
  have hid : ∀ id, w1.fs.node (fileKey (pathJoin bf name) id) = w.fs.node (fileKey (pathJoin bf name) id) := by
    intro id
    apply h6
    rw [fileKey_eq]
    simp
  have c1 : Clear w1.fs (pathJoin bf name) := by
    refine ⟨?_, by rw [hid]; exact h.noOld, fun f => by rw [hid]; exact h.data f⟩
    intro d hd
    rcases h1 (resolve (pathJoin bf name)) with h2 | ⟨_, h2⟩
    · rw [h2] at hd; exact h.way d hd
    · rw [h2] at hd; cases hd
  split
  · exact c1
  · refine wpc_mono (wpc_blockCreate hlen hmeta) ?_ (fun _ _ => trivial)
    rintro r w2 ⟨_, ⟨fs1, j, hfl, _, hfs⟩, _⟩
    have hnb : (newBlock env (pathJoin bf name) dt nmemb sizes).basename = pathJoin bf name := rfl
    have hne : ∀ id, resolve (pathJoin bf name) ≠ fileKey (pathJoin bf name) id := by
      intro id he
      have := congrArg List.length he
      rw [fileKey_eq] at this
      simp at this
    have hother : ∀ k, k ≠ fileKey (pathJoin bf name) .header → k ≠ fileKey (pathJoin bf name) .attrV2 → fs1.node k = w1.fs.node k := by
      intro k k1 k2
      obtain ⟨fs2, g1, g2⟩ := hfl
      rw [hnb] at g1 g2
      have e1 : fs2.node k = w1.fs.node k := by
        rcases g1 with rfl | ⟨_, n, rfl⟩
        · rfl
        · exact FS.set_other _ _ _ _ k1
      rw [← e1]
      rcases g2 with rfl | ⟨_, n, rfl⟩
      · rfl
      · exact FS.set_other _ _ _ _ k2
    rw [hfs]
    refine ⟨?_, ?_, ?_⟩
    · intro d
      rw [truncFS_other _ _ _ _ _ fun f _ _ => hne _, hother _ (hne _) (hne _)]
      exact c1.way d
    · rw [truncFS_other _ _ _ _ _ fun f _ _ => fileKey_ne (by simp), hother _ (fileKey_ne (by simp)) (fileKey_ne (by simp))]
      exact c1.noOld
    · intro f
      by_cases hf : f < j
      · rw [truncFS_data _ _ _ _ f (Nat.zero_le _) (by omega)]
        simp
      · rw [truncFS_other _ _ _ _ _ fun f' _ h2 => fileKey_ne (by simp; omega), hother _ (fileKey_ne (by simp)) (fileKey_ne (by simp))]
        exact c1.data f

end Verif
