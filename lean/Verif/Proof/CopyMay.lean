import Verif.Spec.CopyMay
import Verif.Props.Copy
import Verif.Props.Durable
/-!
# Copying while file operations fail
-/

set_option autoImplicit false

namespace Verif

open Spec

variable {env : Env} {K : Kind} {A : Content} {w : World} {bb : Block} {S : Durable}

/-! ## Combining what is known -/

theorem wpc_wlp {α : Type} {m : M α} {w : World} {Q Q' : α → World → Prop} {C C' : World → Prop}
    (h : wpc m w Q C) (h' : wlp m w Q' C') : wpc m w (fun a w' => Q a w' ∧ Q' a w') (fun w' => C w' ∧ C' w') := by
  unfold wpc wlp at *
  cases hm : m w with
  | ok a w' => rw [hm] at h h'; exact ⟨h, h'⟩
  | crash w' => rw [hm] at h h'; exact ⟨h, h'⟩
  | ub => rw [hm] at h; exact h
  | hang => rw [hm] at h; exact h

/-- The run itself is known in the postcondition. -/
theorem wpc_run {α : Type} {m : M α} {w : World} {Q : α → World → Prop} {C : World → Prop}
    (h : wpc m w Q C) : wpc m w (fun a w' => Q a w' ∧ m w = .ok a w') C := by
  unfold wpc at *
  cases hm : m w with
  | ok a w' => rw [hm] at h; exact ⟨h, rfl⟩
  | crash w' => rw [hm] at h; exact h
  | ub => rw [hm] at h; exact h
  | hang => rw [hm] at h; exact h

/-! ## What is touched -/

theorem Spec.OnlyMade.refl (dst : CStr) (fs : FS) : OnlyMade dst fs fs := fun _ h => absurd rfl h

theorem Spec.OnlyMade.trans {dst : CStr} {fs fs1 fs2 : FS} (h : OnlyMade dst fs fs1) (h' : OnlyMade dst fs1 fs2) : OnlyMade dst fs fs2 := by
  intro k hk
  by_cases he : fs2.node k = fs1.node k
  · rcases h k (by rw [← he]; exact hk) with h1 | ⟨h1, h2, h3⟩
    · exact Or.inl h1
    · exact Or.inr ⟨h1, h2, by rw [he]; exact h3⟩
  · rcases h' k he with h1 | ⟨h1, h2, h3⟩
    · exact Or.inl h1
    · by_cases he' : fs1.node k = fs.node k
      · exact Or.inr ⟨h1, by rw [← he']; exact h2, h3⟩
      · rcases h k he' with h4 | ⟨_, _, h5⟩
        · exact Or.inl h4
        · rw [h5] at h2; cases h2

theorem Spec.OnlyMade.of_outside {dst : CStr} {fs fs' : FS} (h : SameOutside dst fs fs') : OnlyMade dst fs fs' := by
  intro k hk
  by_cases hx : ∃ id, k = fileKey dst id
  · exact Or.inl hx
  · exact absurd (h k fun id he => hx ⟨id, he⟩) hk

theorem Spec.OnlyMade.source {dst src : CStr} {fs fs' : FS} (h : OnlyMade dst fs fs') (ha : Apart src dst)
    (hd : fs.node (resolve src) = some .dir) :
    fs'.node (resolve src) = fs.node (resolve src) ∧ ∀ id, fs'.node (fileKey src id) = fs.node (fileKey src id) := by
  refine ⟨?_, fun id => ?_⟩
  · by_cases he : fs'.node (resolve src) = fs.node (resolve src)
    · exact he
    · rcases h _ he with ⟨id, h1⟩ | ⟨_, h1, _⟩
      · exact absurd h1 (ha.notFile id)
      · rw [h1] at hd; cases hd
  · by_cases he : fs'.node (fileKey src id) = fs.node (fileKey src id)
    · exact he
    · rcases h _ he with ⟨id', h1⟩ | ⟨h1, _, _⟩
      · exact absurd (C38_files_distinct _ _ _ _ h1).1 ha.ne
      · exact absurd h1 (ha.notBelow id)

theorem Spec.OnDisk.unmade {dst src : CStr} {fs fs' : FS} (h : OnDisk env K fs src A) (hm : OnlyMade dst fs fs') (ha : Apart src dst) :
    OnDisk env K fs' src A := by
  have hd : fs.node (resolve src) = some .dir := by
    obtain ⟨_, _, b, hb, _, h⟩ := h
    rw [← hb]
    exact h.dir.dir
  exact h.congr (hm.source ha hd).1 (hm.source ha hd).2

theorem Spec.Holds.unmade {dst : CStr} {fs fs' : FS} (h : Holds env K bb fs A) (hm : OnlyMade dst fs fs') (ha : Apart bb.basename dst) :
    Holds env K bb fs' A := h.congr (hm.source ha h.dir.dir).1 (hm.source ha h.dir.dir).2

/-- New directories leave the room there was. -/
theorem Spec.Room.newDirs {base : CStr} {fs fs' : FS} (h : Room fs base) (hm : OnlyNewDirs fs fs')
    (hp : ∀ k, fs'.node k ≠ fs.node k → k <+: resolve base) : Room fs' base := by
  have hkey : ∀ id, fs'.node (fileKey base id) = fs.node (fileKey base id) := by
    intro id
    by_cases he : fs'.node (fileKey base id) = fs.node (fileKey base id)
    · exact he
    · have := (hp _ he).length_le
      rw [fileKey_eq] at this
      simp at this
      omega
  refine ⟨?_, fun id => by rw [hkey]; exact h.files id, by rw [hkey]; exact h.noOld⟩
  intro k hk hf
  rcases hm k with h1 | ⟨_, h1⟩
  · exact h.way k hk (by unfold IsFile at hf ⊢; rw [← h1]; exact hf)
  · obtain ⟨d, hd⟩ := hf
    rw [h1] at hd
    cases hd

/-! ## The steps -/

theorem wpc_statOk {path : CStr} {Q : Bool → World → Prop} {C : World → Prop}
    (h : ∀ b w', w'.fs = w.fs → w'.faults = w.faults → Q b w') (hc : ∀ w', w'.fs = w.fs → C w') : wpc (statOk path) w Q C := by
  unfold statOk
  rw [wpc_bind, wpc_tick]
  cases hf : w.faults w.clock with
  | crash n => exact hc _ rfl
  | fail => exact h _ _ rfl rfl
  | none => exact h _ _ rfl rfl
  | short n => exact h _ _ rfl rfl
  | silent n => exact h _ _ rfl rfl

theorem bigFileOpen_may {file : CStr} (hfl : file.length ≤ 8192) :
    wpc (bigFileOpen file) w (fun r w' => w'.fs = w.fs ∧ w'.faults = w.faults ∧ (r.1 = 0 → r.2 = file)) (fun w' => w'.fs = w.fs) := by
  unfold bigFileOpen
  rw [wpc_bind]
  apply wpc_statOk
  · intro b w' h1 h2
    cases b with
    | true => exact ⟨h1, h2, fun _ => strdup_short hfl⟩
    | false => exact ⟨h1, h2, fun h => by cases h⟩
  · exact fun _ h => h

theorem baseKey_nil (path : CStr) : baseKey [] path ++ names path = resolve path := by
  rw [resolve_names]; rfl

theorem bigFileCreate_may {path : CStr} (hne : path ≠ []) (hlen : path.length ≤ 8192) :
    wpc (bigFileCreate path) w
      (fun r w' => w'.faults = w.faults ∧ (TreeOk w.fs → TreeOk w'.fs) ∧ OnlyNewDirs w.fs w'.fs ∧
        (∀ k, w'.fs.node k ≠ w.fs.node k → k <+: resolve path) ∧ r.2 = path ∧
        (r.1 = 0 → (w'.fs.node (resolve path)).isSome = true))
      (fun w' => OnlyNewDirs w.fs w'.fs ∧ ∀ k, w'.fs.node k ≠ w.fs.node k → k <+: resolve path) := by
  have hpre : ∀ k, (∃ t, t <+: names path ∧ k = baseKey [] path ++ t) → k <+: resolve path := by
    rintro k ⟨t, ⟨u, hu⟩, rfl⟩
    exact ⟨u, by rw [List.append_assoc, hu, baseKey_nil]⟩
  unfold bigFileCreate
  rw [wpc_bind]
  refine wpc_mono (mksubdirR_spec [] path w hlen (Or.inl hne)) ?_ ?_
  · rintro rc w1 ⟨h1, h2, h3, _⟩
    rw [wpc_pure]
    refine ⟨h1.faults, h1.tree, h1.only, fun k hk => hpre k (h1.where_ k hk), strdup_short hlen, fun h => ?_⟩
    rw [← baseKey_nil]
    apply h3
    by_cases hr : rc = 0
    · exact hr
    · rw [if_neg hr] at h; cases h
  · rintro w1 ⟨_, h1, _, h3⟩
    exact ⟨h1, fun k hk => hpre k (h3 k hk)⟩

theorem createBlock_may {bf name dt : CStr} {nmemb : Int} {fsize : List Nat} (ht : TreeOk w.fs) (hbf : bf ≠ [])
    (hlen : (pathJoin bf name).length ≤ 8192) (hmeta : isMeta (pathJoin bf name) = false) :
    wpc (createBlock env bf name (some dt) nmemb fsize) w
      (fun r w' => w'.faults = w.faults ∧ OnlyMade (pathJoin bf name) w.fs w'.fs ∧
        (r = (-1, none) ∨ r = (0, some (freshBlock env (pathJoin bf name) dt nmemb fsize))))
      (fun w' => OnlyMade (pathJoin bf name) w.fs w'.fs) := by
  have hbk : baseKey bf name = resolve bf := by unfold baseKey; rw [if_neg hbf]
  have hmade : ∀ {fs' : FS}, OnlyNewDirs w.fs fs' → (∀ k, fs'.node k ≠ w.fs.node k → ∃ t, t <+: names name ∧ k = baseKey bf name ++ t) →
      OnlyMade (pathJoin bf name) w.fs fs' := by
    intro fs' h1 h2 k hk
    rcases h1 k with h | ⟨h, h'⟩
    · exact absurd h hk
    · obtain ⟨t, ⟨u, hu⟩, rfl⟩ := h2 k hk
      refine Or.inr ⟨⟨u, ?_⟩, h, h'⟩
      rw [List.append_assoc, hu, hbk, resolve_join bf name hbf]
  unfold createBlock
  rw [wpc_bind]
  refine wpc_mono (mksubdirR_spec bf name w (pathJoin_length hlen) (Or.inr hbf)) ?_ ?_
  · rintro rc w1 ⟨h1, h2, h3, _⟩
    have hm1 := hmade h1.only h1.where_
    split
    · exact ⟨h1.faults, hm1, Or.inl rfl⟩
    · refine wpc_mono (wpc_wlp (wpc_blockCreate (env := env) (dt := dt) (nmemb := nmemb) (fsize := fsize) (w := w1) hlen hmeta)
        (blockCreate_files env (pathJoin bf name) (some dt) nmemb fsize w1 (h1.tree ht))) ?_ ?_
      · rintro r w2 ⟨⟨k1, _, k3, _⟩, ⟨_, k5, _⟩⟩
        rw [strdup_short hlen] at k5
        refine ⟨k1.trans h1.faults, hm1.trans (OnlyMade.of_outside k5), ?_⟩
        rcases k3 with k | ⟨k, _⟩
        · exact Or.inl k
        · exact Or.inr k
      · rintro w2 ⟨_, ⟨_, k5⟩⟩
        rw [strdup_short hlen] at k5
        exact hm1.trans (OnlyMade.of_outside k5)
  · rintro w1 ⟨_, h1, _, h3⟩
    exact hmade h1 h3

/-- Closing. -/
theorem close_may (h : HoldsD env K bb w.fs S) (hns : NoSilent w.faults) :
    wpc (blockClose env bb) w (fun rc w' => w'.faults = w.faults ∧ SameOutside bb.basename w.fs w'.fs ∧
        (rc = 0 → HoldsD env K (cleaned bb) w'.fs S.flushed))
      (fun w' => SameOutside bb.basename w.fs w'.fs) := by
  obtain ⟨txt, k1, k2⟩ := h.attrText
  unfold blockClose
  rw [wpc_bind]
  refine wpc_mono (wpc_wlp (wpc_blockFlush_cases bb txt w hns k1) (blockFlush_touches env bb w)) ?_ (fun _ h => h.2)
  rintro ⟨rc, bb'⟩ w1 ⟨⟨f1, hcase⟩, ho⟩
  rw [wpc_pure]
  refine ⟨f1, ho, fun hrc => ?_⟩
  rcases hcase with ⟨_, _, h3⟩ | ⟨h1, _⟩ | ⟨h1, _⟩
  · rw [h3]; exact h.flushedOk k2
  · simp only at h1; subst h1; simp at hrc
  · simp only at h1; subst h1; simp at hrc

/-- One round is: read, then write the rows to the same place of the new block. -/
theorem copyLoop_step (bn : Block) (chunk : Nat) (buf : Int) (fuel off : Nat) (mem : Mem) (sw : Nat) (h : off < bb.size) :
    copyLoop env bb chunk buf (fuel + 1) bn off mem = (do
      let r ← readSimple env bb off (i64 chunk) none buf mem
      match r.2.1 with
      | none => pure (.failed, bn)
      | some a =>
        let x ← runBOp env bn (.write off a r.2.2 sw)
        if x.1.rc ≠ 0 then pure (.failed, x.2)
        else copyLoop env bb chunk buf fuel x.2 (off + a.dims.headD 0) x.1.mem) := by
  rw [copyLoop, if_pos h]
  refine bind_congr fun r => ?_
  obtain ⟨rc, arr, mem1⟩ := r
  cases arr with
  | none => rfl
  | some a =>
    funext w
    unfold runBOp
    simp only [bind, M.bind]
    cases hq : seek bn ⟨0, 0, 0⟩ (off : Int) with
    | none => rfl
    | some q =>
      obtain ⟨rc, ptr⟩ := q
      simp only [M.lift, M.pure]
      by_cases hrc : rc ≠ 0
      · simp only [if_pos hrc, pure, M.pure]
      · simp only [if_neg hrc, M.bind]
        cases blockWrite env bn ptr a mem1 w with
        | ok x w1 => rfl
        | crash w1 => rfl
        | ub => rfl
        | hang => rfl

/-- Which rows are stored depends only on the files of the block. -/
theorem stored_congr {fs fs' : FS} (hf : ∀ id, fs'.node (fileKey bb.basename id) = fs.node (fileKey bb.basename id)) (r : Nat) :
    Stored env.m fs' bb r ↔ Stored env.m fs bb r := by
  unfold Stored row
  rw [bytes_congr (hf _)]

/-- The loop. If it is done, every row of the source was there: `A` is the content of all rows that are stored. -/
theorem copyLoop_may (chunk : Nat) (hch0 : 0 < chunk) (hch : A.size + chunk < 9223372036854775808) (buf : Int)
    (dst : CStr) (hap : Apart bb.basename dst) (B0 : Content) (st : Option (Nat × Nat)) (hB : B0.size = A.size) :
    ∀ (fuel : Nat) (bn : Block) (off : Nat) (mem : Mem) (w : World), A.size - off < fuel → off ≤ A.size →
    Holds env K bb w.fs A → (∀ r, r < A.size → Stored env.m w.fs bb r → (A.rows r).isSome = true) →
    (∀ r, r < off → (A.rows r).isSome = true) → NoSilent w.faults → bn.basename = dst →
    HoldsD env K bn w.fs ⟨{ B0 with rows := fun r => if r < off then A.rows r else none }, st, true, true⟩ →
    wpc (copyLoop env bb chunk buf fuel bn off mem) w
      (fun r w' => w'.faults = w.faults ∧ SameOutside dst w.fs w'.fs ∧ (r.1 = .done ∨ r.1 = .failed) ∧ r.2.basename = dst ∧
        (r.1 = .done → A.full ∧ HoldsD env K r.2 w'.fs ⟨{ B0 with rows := A.rows }, st, true, true⟩))
      (fun w' => SameOutside dst w.fs w'.fs) := by
  intro fuel
  induction fuel with
  | zero => intro bn off mem w h; omega
  | succ fuel ih =>
    intro bn off mem w hf hle hs hk hlow hns hbn hd
    by_cases hlt : off < A.size
    · have hbs := hs.size
      generalize hn : min chunk (A.size - off) = n
      have hn0 : 0 < n := by omega
      have hoff : off + n ≤ A.size := by omega
      have hbytes : n * K.nm * K.w < 9223372036854775808 := by
        have h1 := hs.ok.offs
        have h2 := hs.ok.layout.size
        have h3 : n * (K.w * K.nm) ≤ bb.fsize.sum * (K.w * K.nm) := Nat.mul_le_mul_right _ (by omega)
        rw [Nat.mul_assoc, Nat.mul_comm K.nm]
        omega
      have hsize : min chunk (bb.size - off) = n := by rw [hbs]; exact hn
      rw [copyLoop_step (env := env) (bb := bb) bn chunk buf fuel off mem K.w (by rw [hbs]; exact hlt), wpc_bind,
        i64_of_range (by omega) (by omega)]
      refine wpc_mono (C58_read_simple_partial env bb K.w K.nm K.w none off chunk buf mem w
        (elemOfRows env.m w.fs bb off K.w K.nm) hs.ok hs.ok.item hs.ok.item0 (by omega) (by omega) (by rw [hsize]; exact hbytes)
        (fun _ => convertible_same _ _ _) (fun e _ _ => convElem_same _ _ _ _)) ?_ (fun w1 h1 => by rw [h1.1]; exact SameOutside.refl _ _)
      rintro ⟨rc, arr, mem1⟩ w1 r1
      rw [hsize] at r1
      by_cases hrc : rc = 0
      · obtain ⟨ha, hst, hm⟩ := r1.done hrc
        simp only at ha
        subst ha
        dsimp only
        have hlow' : ∀ r, r < off + n → (A.rows r).isSome = true := by
          intro r hr
          by_cases h1 : r < off
          · exact hlow r h1
          · refine hk r (by omega) ?_
            have := hst (r - off) (by omega)
            rw [show off + (r - off) = r by omega] at this
            exact this
        have hd1 := hd
        rw [← r1.fs] at hd1
        have hrows : (freshArr env.m bb.dtype n K.nm K.w buf).size / K.nm = n := freshArr_rows _ _ _ _ _ _ hs.ok.memb0
        have hx := hs.ok.fresh bb.dtype n K.w buf hn0 hs.ok.item hs.ok.item0 hbytes
        have hao : ArrayOk env (freshArr env.m bb.dtype n K.nm K.w buf) K.w :=
          ⟨hx.arr, hx.asize, hx.anorm, hx.aitem, hx.aitem0, hx.abytes⟩
        have hconv : ∀ e, (toBlock env K (freshArr env.m bb.dtype n K.nm K.w buf) mem1 K.w e).isSome = true := by
          intro e
          unfold toBlock
          show (convElem env.m env.fo K.dtype (dtypeNormalize env.m bb.dtype) _).isSome = true
          rw [hs.kind, convElem_same]
          rfl
        rw [wpc_bind]
        have htouch : Touches bn.basename (runBOp env bn (.write off (freshArr env.m bb.dtype n K.nm K.w buf) mem1 K.w)) := by
          unfold runBOp
          refine Touches.bind (Touches.lift _) fun q => ?_
          obtain ⟨rc, ptr⟩ := q
          dsimp only
          split
          · exact Touches.pure _
          · exact Touches.bind (blockWrite_touches env _ bn ptr _ mem1) fun x => Touches.pure _
        refine wpc_mono (wpc_wlp (write_may hd1 off (freshArr env.m bb.dtype n K.nm K.w buf) mem1 K.w
          ⟨by omega, hao, fun _ => freshArr_disjoint _ _ _ _ _ _, fun _ e _ => hconv e⟩) (htouch w1)) ?_ ?_
        · rintro ⟨x, bn'⟩ w2 ⟨⟨s1, s2, S', s3, s4⟩, ho⟩
          rw [hbn, r1.fs] at ho
          have hin : off + (freshArr env.m bb.dtype n K.nm K.w buf).size / K.nm ≤ B0.size := by rw [hrows]; omega
          dsimp only at s1 s3 s4 ⊢
          have hf2 : w2.faults = w.faults := s2.trans r1.faults
          by_cases hrc2 : x.rc ≠ 0
          · rw [if_pos hrc2]
            exact ⟨hf2, ho, Or.inr rfl, s1.trans hbn, by intro h; cases h⟩
          · rw [if_neg hrc2]
            have hS' : S' = ⟨{ B0 with rows := fun r => if r < off + n then A.rows r else none }, st, true, true⟩ := by
              cases s3 with
              | write _ _ _ _ _ h1 => rw [h1] at hrc2; exact absurd (by decide) hrc2
              | done _ _ _ =>
                simp only [Durable.next, Content.next]
                rw [if_pos hin, hrows]
                congr 2
                funext r
                by_cases hr : off ≤ r ∧ r < off + n
                · rw [if_pos hr, if_pos hr.2]
                  obtain ⟨bytes, hb⟩ := Option.isSome_iff_exists.mp (hlow' r hr.2)
                  rw [hb, chunk_row hs off n buf mem1 hm (r - off) (by omega) bytes (by rw [show off + (r - off) = r by omega]; exact hb)]
                · rw [if_neg hr]
                  by_cases h1 : r < off
                  · rw [if_pos h1, if_pos (by omega)]
                  · rw [if_neg h1, if_neg (by omega)]
            rw [hS'] at s4
            refine wpc_mono (ih bn' (off + n) x.mem w2 (by omega) hoff (hs.outside hap ho)
              (fun r hr hsr => hk r hr ((stored_congr (hap.outside ho).2 r).mp hsr)) hlow' (by rw [hf2]; exact hns) (s1.trans hbn) s4) ?_ ?_
            · rintro r w3 ⟨t1, t2, t3⟩
              exact ⟨t1.trans hf2, ho.trans t2, t3⟩
            · intro w3 t2
              exact ho.trans t2
        · rintro w2 ⟨_, ho⟩
          rw [hbn, r1.fs] at ho
          exact ho
      · obtain ⟨_, ha⟩ := r1.failed hrc
        simp only at ha
        subst ha
        exact ⟨r1.faults, by rw [r1.fs]; exact SameOutside.refl _ _, Or.inr rfl, hbn, by intro h; cases h⟩
    · rw [copyLoop, if_neg (by rw [hs.size]; exact hlt), wpc_pure]
      refine ⟨rfl, SameOutside.refl _ _, Or.inl rfl, hbn, fun _ => ⟨fun r hr => hlow r (by omega), ?_⟩⟩
      refine Eq.mp ?_ hd
      congr 3
      funext r
      by_cases h1 : r < off
      · rw [if_pos h1]
      · rw [if_neg h1]
        cases h2 : A.rows r with
        | none => rfl
        | some bytes =>
          have := (hs.rows r bytes h2).1
          omega

end Verif
