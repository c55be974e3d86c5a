import Verif.Spec.PyAttrDisk
import Verif.Props.PyAttr
/-!
# C83: in Python the attributes of a block survive closing and opening it
-/

set_option autoImplicit false

namespace Verif

open Spec

theorem clean_normalize {m : Machine} {dt : CStr} (h : Clean dt) : Clean (dtypeNormalize m dt) := by
  have he : m.endian ≠ 0 ∧ m.endian ≠ 9 ∧ m.endian ≠ 10 ∧ m.endian ≠ 32 := by
    unfold Machine.endian
    split <;> decide
  have ht : ∀ k, Clean (dt.take k) := fun k c hc => h c (List.mem_of_mem_take hc)
  have h61 : Clean ((61 :: dt.take 7).take 7) := by
    intro c hc
    rcases List.mem_cons.mp (List.mem_of_mem_take hc) with rfl | hc
    · decide
    · exact ht 7 c hc
  have hsecond : ∀ d : CStr, Clean d → Clean (match d with | 61 :: t => m.endian :: t | 124 :: t => m.endian :: t | t => t) := by
    intro d hd
    split
    · rename_i t
      intro c hc
      rcases List.mem_cons.mp hc with rfl | hc
      · exact he
      · exact hd c (by simp [hc])
    · rename_i t
      intro c hc
      rcases List.mem_cons.mp hc with rfl | hc
      · exact he
      · exact hd c (by simp [hc])
    · exact hd
  unfold dtypeNormalize
  apply hsecond
  split
  · exact ht 7
  · exact ht 7
  · exact ht 7
  · exact ht 7
  · exact h61

theorem clean_decStr (n : Nat) : Clean (decStr n) := by
  intro c hc
  obtain ⟨v, hv, hv2⟩ := decStr_digits n c hc
  have : 48 ≤ c.toNat := by
    rw [hv2, digitChar_toNat v (by omega)]
    split <;> omega
  refine ⟨?_, ?_, ?_, ?_⟩ <;> (rintro rfl; revert this; decide)

theorem clean_name {name : CStr} (h0 : (0 : Byte) ∉ name) (hb : hasBlank name = false) : Clean name := by
  intro c hc
  unfold hasBlank at hb
  have := List.any_eq_false.mp hb c hc
  simp only [Bool.or_eq_true, beq_iff_eq, not_or] at this
  exact ⟨fun h => h0 (h ▸ hc), this.1.2, this.2, this.1.1⟩

/-- What a value is stored as can be stored. -/
theorem put_stores {m : Machine} {v : PyValue} (hl : PutLegal m v) (h : PutStores v) :
    Clean (dtypeNormalize m v.buffer.1) ∧ 0 < v.buffer.2.1 ∧ v.buffer.2.2.length < 1073741824 := by
  cases v with
  | str s =>
    have h : s.length < 1073741824 := h
    refine ⟨clean_normalize (show Clean b!"a1" from (by decide : ∀ c ∈ b!"a1", c ≠ 0 ∧ c ≠ 9 ∧ c ≠ 10 ∧ c ≠ 32)), ?_, ?_⟩
    · show 0 < (if s = [] then [0] else s).length
      split
      · decide
      · rename_i hs; exact List.length_pos_iff.mpr hs
    · show (if s = [] then [0] else s).length < _
      split
      · decide
      · exact h
  | texts l =>
    have h : npWidth l * l.length < 1073741824 := h
    refine ⟨clean_normalize ?_, List.length_pos_iff.mpr hl.1, ?_⟩
    · intro c hc
      rcases List.mem_append.mp hc with hc | hc
      · exact (by decide : ∀ c ∈ b!"|S", c ≠ 0 ∧ c ≠ 9 ∧ c ≠ 10 ∧ c ≠ 32) c hc
      · exact clean_decStr _ c hc
    · show (l.flatMap (npPad (npWidth l))).length < _
      rw [flatMap_pad_length fun s hs => npWidth_ge hs]
      exact h
  | array dt n data => exact ⟨clean_normalize h.2.1, h.1, h.2.2⟩

/-- One operation, as far as the attribute file is concerned. -/
theorem dictStep_disk {env : Env} {s s' : AttrSet} {op : DictOp} {ans : DictAns} (hw : WellAttrs env.m s)
    (ho : InOrder env.m (attrView env.m s)) (hl : DictLegal env.m op) (hst : AllStorable (attrView env.m s)) (hp : DictStores op)
    (h : dictStep env s op = some (ans, s')) :
    AllStorable (attrView env.m s') ∧ s'.dirty = (s.dirty || op.isSet) ∧ (op.isSet = false → op.isDel = false → s' = s) := by
  obtain ⟨es, hi⟩ := hw
  cases op with
  | set name v buf =>
    obtain ⟨h0, h1, h2⟩ := hl
    obtain ⟨p1, p2, p3, p4, p5⟩ := put_ok h2
    obtain ⟨q1, q2, q3⟩ := put_stores h2 hp.2
    simp only [dictStep, pyAttrSet] at h
    by_cases hb : hasBlank name = true
    · unfold setAttr at h
      simp only at h
      rw [if_pos hb] at h
      injection h with h
      have h : s' = { s with dirty := true } := by
        have := congrArg Prod.snd h
        exact this.symm
      subst h
      refine ⟨?_, by simp [DictOp.isSet], by simp [DictOp.isSet]⟩
      rw [(hi.dirty true).view_eq, ← hi.view_eq]
      exact hst
    · have hb' : hasBlank name = false := by simpa using hb
      obtain ⟨s1, es', sm', k1, k2, k3, k4, _⟩ := setAttr_spec hi name v.buffer.1 v.buffer.2.1
        (poke env.junk buf v.buffer.2.2) buf h0 p1 p2 h1 hb'
      rw [← p3, peek_poke_same] at k3
      rw [k1] at h
      injection h with h
      have h : s' = s1 := (congrArg Prod.snd h).symm
      subst h
      refine ⟨?_, by rw [k4]; simp [DictOp.isSet], by simp [DictOp.isSet]⟩
      rw [k2.view_eq, k3]
      intro x y hy
      unfold AttrMap.put at hy
      split at hy
      · rename_i hx
        injection hy with hy
        subst hx hy
        exact ⟨hp.1, clean_name h0 hb', h1, q1, q2, q3⟩
      · rw [← hi.view_eq] at hy
        exact hst x y hy
  | get name buf =>
    rw [hi.view_eq] at ho
    simp only [dictStep, pyAttrGet] at h
    have hs : s' = s := by
      rcases lookup_find hi name with ⟨c1, c2, _⟩ | ⟨i, e, c1, c2, c3, c4, c5, c6⟩
      · rw [c1] at h
        injection h with h
        exact (congrArg Prod.snd h).symm
      · rw [c1] at h
        simp only at h
        rw [c5] at h
        simp only at h
        obtain ⟨dm', k1, k2⟩ := getAttr_own hi c6 (ho name e.val c6) buf env.junk
        have hd : (e.attr s.base).dtype = e.val.dtype := rfl
        have hn : (e.attr s.base).nmemb = (e.val.nmemb : Int) := rfl
        rw [hd, hn, k1] at h
        injection h with h
        exact (congrArg Prod.snd h).symm
    subst hs
    exact ⟨hst, by simp [DictOp.isSet], fun _ _ => rfl⟩
  | del name =>
    simp only [dictStep, pyAttrDel] at h
    obtain ⟨es', k1, _, k3, _, _, l, k6⟩ := removeAttr_spec hi name
    cases hl2 : lookupAttr s name with
    | none =>
      rw [hl2] at h
      injection h with h
      have h : s' = s := (congrArg Prod.snd h).symm
      subst h
      exact ⟨hst, by simp [DictOp.isSet], fun _ _ => rfl⟩
    | some i =>
      rw [hl2] at h
      injection h with h
      have h : s' = (removeAttr s name).2 := (congrArg Prod.snd h).symm
      subst h
      refine ⟨?_, by rw [k6]; simp [DictOp.isSet], by simp [DictOp.isDel]⟩
      rw [k1.view_eq, k3]
      intro x y hy
      unfold AttrMap.del at hy
      split at hy
      · cases hy
      · rw [← hi.view_eq] at hy
        exact hst x y hy
  | has name =>
    injection h with h
    have h : s' = s := (congrArg Prod.snd h).symm
    subst h
    exact ⟨hst, by simp [DictOp.isSet], fun _ _ => rfl⟩
  | keys =>
    injection h with h
    have h : s' = s := (congrArg Prod.snd h).symm
    subst h
    exact ⟨hst, by simp [DictOp.isSet], fun _ _ => rfl⟩

theorem dictRun_disk {env : Env} : ∀ (ops : List DictOp) {s s' : AttrSet} {anses : List DictAns}, WellAttrs env.m s →
    InOrder env.m (attrView env.m s) → (∀ op ∈ ops, DictLegal env.m op ∧ DictStores op) → AllStorable (attrView env.m s) →
    dictRun env s ops = some (anses, s') →
    AllStorable (attrView env.m s') ∧ s'.dirty = (s.dirty || ops.any DictOp.isSet) ∧
      (ops.any DictOp.isSet = false → ops.any DictOp.isDel = false → s' = s) := by
  intro ops
  induction ops with
  | nil =>
    intro s s' anses _ _ _ hst h
    injection h with h
    have h : s' = s := (congrArg Prod.snd h).symm
    subst h
    exact ⟨hst, by simp, fun _ _ => rfl⟩
  | cons op ops ih =>
    intro s s' anses hw ho hl hst h
    obtain ⟨hl1, hp1⟩ := hl op (by simp)
    obtain ⟨es, hi⟩ := hw
    have ho' := ho
    rw [hi.view_eq] at ho'
    obtain ⟨ans, s1, es1, k1, k2, k3, _⟩ := dictStep_spec hi ho' op hl1
    obtain ⟨j1, j2, j3⟩ := dictStep_disk ⟨es, hi⟩ ho hl1 hst hp1 k1
    simp only [dictRun, k1, Option.bind_some] at h
    obtain ⟨⟨as, s2⟩, hr1, hr2⟩ := Option.map_eq_some_iff.mp h
    have hr2 : s' = s2 := (congrArg Prod.snd hr2).symm
    subst hr2
    obtain ⟨i1, i2, i3⟩ := ih ⟨es1, k2⟩ (by rw [k2.view_eq]; exact k3) (fun o ho => hl o (by simp [ho])) j1 hr1
    refine ⟨i1, by rw [i2, j2, List.any_cons, Bool.or_assoc], fun ha hb => ?_⟩
    rw [List.any_cons, Bool.or_eq_false_iff] at ha hb
    rw [i3 ha.2 hb.2, j3 ha.1 hb.1]

/-- **C83, closing and opening** (partial: as `C83_dict_partial`; there is no attribute file of the old format, values are not empty and
less than 1 GiB, and a history that deletes items also sets one, see `C83_delete_lost`). After any history of what Python does with the
attributes of a block that is consistent with the disk, close the block and open it again, without faults: both succeed, and the
attributes are the dictionary that the history makes. -/
theorem C83_survives_partial (env : Env) (bb : Block) (w : World) (ops : List DictOp) (hnf : w.faults = noFaults)
    (hsv : Savable env bb) (hdir : DirOk w.fs bb.basename) (hsync : Synced env w.fs bb) (ho : InOrder env.m (attrView env.m bb.attrset))
    (hold : w.fs.node (fileKey bb.basename .attr) = none) (hl : ∀ op ∈ ops, DictLegal env.m op ∧ DictStores op)
    (hsave : bb.attrset.dirty = true ∨ ops.any DictOp.isSet = true ∨ ops.any DictOp.isDel = false) :
    ∃ anses s b w', dictRun env bb.attrset ops = some (anses, s) ∧
      closeOpen env { bb with attrset := s } w = .ok (0, 0, some b) w' ∧
      pyDict env.m (attrView env.m b.attrset) = dictAfter env.m (pyDict env.m (attrView env.m bb.attrset)) ops ∧
      SameShape bb b ∧ b.fchecksum = bb.fchecksum := by
  obtain ⟨anses, s, h1, _, h3, h4, _⟩ := C83_dict_partial env bb.attrset hsv.attrs ho ops fun op h => (hl op h).1
  obtain ⟨j1, j2, j3⟩ := dictRun_disk ops hsv.attrs ho hl hsv.storable h1
  have hsv' : Savable env { bb with attrset := s } :=
    ⟨hsv.fmt, ⟨hsv.header.dt, hsv.header.nmemb0, hsv.header.nmembMax, hsv.header.nfile, hsv.header.nck,
      hsv.header.nfileMax, hsv.header.sizes, hsv.header.cks⟩, hsv.offsets, hsv.size, h4, j1, hsv.base, hsv.notMeta⟩
  have hsync' : Synced env w.fs { bb with attrset := s } := by
    refine ⟨fun h => hsync.header h, fun h => ?_⟩
    simp only at h ⊢
    rw [j2, Bool.or_eq_false_iff] at h
    have hdel : ops.any DictOp.isDel = false := by
      rcases hsave with hs | hs | hs
      · rw [h.1] at hs; exact absurd hs (by simp)
      · rw [h.2] at hs; exact absurd hs (by simp)
      · exact hs
    rw [j3 h.2 hdel]
    exact hsync.attrs h.1
  obtain ⟨b, w', k1, _, k2, k3, _, k5, _⟩ := closeOpen_spec hnf hsv' hdir (fun _ => noOld_ok hold _) hsync'
  refine ⟨anses, s, b, w', h1, k1, ?_, ⟨k2.dtype, k2.nmemb, k2.base, k2.size, k2.fsize, k2.foffset, k2.nfile⟩, k3⟩
  rw [k5]
  exact h3

/-! ### It is not vacuous -/

example : ∃ anses s b w', dictRun exEnv exB.attrset exDictOps = some (anses, s) ∧
    closeOpen exEnv { exB with attrset := s } exW = .ok (0, 0, some b) w' ∧
    pyDict exEnv.m (attrView exEnv.m b.attrset) = dictAfter exEnv.m (pyDict exEnv.m (attrView exEnv.m exB.attrset)) exDictOps ∧
    SameShape exB b ∧ b.fchecksum = exB.fchecksum := by
  refine C83_survives_partial exEnv exB exW exDictOps exW_nf exB_savable exDir exB_synced ?_ (by decide +kernel) ?_ (Or.inr (Or.inl rfl))
  · rw [exEmpty_view]
    intro name v h
    cases h
  · intro op hop
    simp only [exDictOps, List.mem_cons, List.mem_nil_iff, or_false] at hop
    rcases hop with rfl | rfl | rfl | rfl | rfl | rfl | rfl | rfl | rfl | rfl | rfl | rfl | rfl | rfl | rfl <;>
      refine ⟨?_, ?_⟩ <;>
      first
        | trivial
        | (refine ⟨by decide, by decide, ?_⟩; simp only [PutLegal]; decide)
        | (refine ⟨by decide, ?_⟩; simp only [PutStores, Clean]; decide)
        | (simp only [DictLegal]; decide)

/-- **It is false** for a history that only deletes: `del block.attrs['a']` after opening the block is forgotten when it is closed. -/
theorem C83_delete_lost :
    (match dictRun exEnv exB.attrset [.set b!"a" (.str b!"x") 100] with
      | none => none
      | some (_, s) => (do
          let r ← closeOpen exEnv { exB with attrset := s }
          match r.2.2 with
          | none => M.ub
          | some bb =>
            match dictRun exEnv bb.attrset [.del b!"a", .has b!"a"] with
            | none => M.ub
            | some (anses, s) => do
              let r ← closeOpen exEnv { bb with attrset := s }
              pure (anses, r.2.2.map fun b => pyAttrHas b.attrset b!"a") : M _) exW |>.val?) =
      some ([.done, .bool false], some true) := by
  decide +kernel

end Verif
