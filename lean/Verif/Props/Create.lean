import Verif.Proof.Meta
import Verif.Props.Disk
/-!
# C12: what is created can be opened
-/

set_option autoImplicit false

namespace Verif

open Spec

/-- A NULL dtype means an `i8` block without files. -/
theorem createInternal_none (env : Env) (base : CStr) (nmemb : Int) (fsize : List Nat) :
    createInternal env base none nmemb fsize = createInternal env base (some b!"i8") nmemb [] := rfl

theorem createBlock_none (env : Env) (bf name : CStr) (nmemb : Int) (fsize : List Nat) :
    createBlock env bf name none nmemb fsize = createBlock env bf name (some b!"i8") nmemb [] := by
  unfold createBlock blockCreate
  rw [createInternal_none]

/-- Making directories does not make an old attribute file unreadable. -/
theorem readsV1_newDirs {env : Env} {fs fs' : FS} {base : CStr} (h : OnlyNewDirs fs fs')
    (hr : ∃ s1, readsV1 env fs base (attrsetCreate env) = some (0, s1) ∧ WellAttrs env.m s1) :
    ∃ s1, readsV1 env fs' base (attrsetCreate env) = some (0, s1) ∧ WellAttrs env.m s1 := by
  rcases h (fileKey base .attr) with h | ⟨_, h⟩
  · rw [readsV1_congr h]; exact hr
  · refine ⟨{ attrsetCreate env with dirty := false }, ?_, [], (attrsetCreate_inv env).dirty false⟩
    unfold readsV1 FS.bytes
    rw [h]
    rfl

theorem freshBlock_header {env : Env} {base dt : CStr} {nmemb : Int} {fsize : List Nat}
    (hdt : PlainDtype (dtypeNormalize env.m dt)) (hm : 0 ≤ nmemb ∧ nmemb < 2147483648)
    (hn : fsize.length ≤ 16777216) (hs : ∀ s ∈ fsize, s < 18446744073709551616) :
    GoodHeader (newBlock env base dt nmemb fsize) := by
  refine ⟨hdt, hm.1, hm.2, rfl, by simp [newBlock], hn, hs, ?_⟩
  intro c hc
  have := (List.mem_replicate.mp hc).2
  omega

theorem createFS_node {env : Env} {base dt : CStr} {nmemb : Int} {fsize : List Nat} {fs : FS} (id : FileId)
    (h : ∀ i, id ≠ .data i) :
    (createFS env base dt nmemb fsize fs).node (fileKey base id) =
      (flushFS (newBlock env base dt nmemb fsize) [] fs).node (fileKey base id) :=
  truncFS_other base _ _ _ _ (fun _ _ _ => fileKey_ne (h _))

/-- **C12** (partial: for dtypes whose normal form is valid and free of blanks, `nmemb ≥ 0` and at most
16^6 files; if an old attribute file is present it is readable). If creating a block returned 0 — whatever
other reported faults there were on the way — then opening it without further faults returns 0, and the
handle is the one `create` returned: same dtype, nmemb, files, sizes and zero checksums. -/
theorem C12_create_open_partial (env : Env) (bf name dt : CStr) (nmemb : Int) (fsize : List Nat) (w w' : World)
    (b : Block) (hns : NoSilent w.faults) (hlen : (pathJoin bf name).length ≤ 8192)
    (hmeta : isMeta (pathJoin bf name) = false) (hdt : PlainDtype (dtypeNormalize env.m dt))
    (hm : 0 ≤ nmemb ∧ nmemb < 2147483648) (hn : fsize.length ≤ 16777216)
    (hs : ∀ s ∈ fsize, s < 18446744073709551616)
    (hold : ∃ s1, readsV1 env w.fs (pathJoin bf name) (attrsetCreate env) = some (0, s1) ∧ WellAttrs env.m s1)
    (h : createBlock env bf name (some dt) nmemb fsize w = .ok (0, some b) w') :
    ∃ b2 w2, openBlock env bf name { w' with faults := noFaults } = .ok (0, some b2) w2 ∧
      SameShape b b2 ∧ b2.fchecksum = b.fchecksum ∧
      b2.dtype = dtypeNormalize env.m dt ∧ b2.nmemb = nmemb ∧ b2.fsize = fsize ∧ (∀ c ∈ b2.fchecksum, c = 0) := by
  have key : wpc (createBlock env bf name (some dt) nmemb fsize) w
      (fun r w' => r = (-1, none) ∨ r = (0, some (freshBlock env (pathJoin bf name) dt nmemb fsize)) ∧
        ∃ fs1, OnlyNewDirs w.fs fs1 ∧ w'.fs = createFS env (pathJoin bf name) dt nmemb fsize fs1)
      (fun _ => True) := by
    unfold createBlock
    rw [wpc_bind]
    apply wpc_mono (wpc_mksubdirR bf name w)
    · rintro rc w1 ⟨f1, h1, h2, _⟩
      rcases h2 with rfl | rfl
      · simp only [ne_eq, not_true_eq_false, if_false]
        apply wpc_mono (wpc_blockCreate hlen hmeta)
        · rintro r w2 ⟨_, _, (h3 | ⟨h3, _, h4⟩), _⟩
          · exact Or.inl h3
          · exact Or.inr ⟨h3, w1.fs, h1, h4 (by rw [f1]; exact hns)⟩
        · intro _ _; trivial
      · simp only [ne_eq, show (-1 : Int) ≠ 0 by decide, not_false_eq_true, if_true]
        rw [wpc_pure]
        exact Or.inl rfl
    · intro _ _; trivial
  rcases wpc_ok key h with h0 | ⟨h0, fs1, hd, hfs⟩
  · exact absurd h0 (by simp)
  · injection h0 with _ h0
    injection h0 with h0
    subst h0
    obtain ⟨s1, hr1, hw1⟩ := readsV1_newDirs hd hold
    have hv1 : w'.fs.node (fileKey (pathJoin bf name) .attr) = fs1.node (fileKey (pathJoin bf name) .attr) := by
      rw [hfs, createFS_node _ (by simp)]
      exact flushFS_other _ _ _ _ (fileKey_ne (by simp)) (fileKey_ne (by simp))
    have hv2 : w'.fs.node (fileKey (pathJoin bf name) .attrV2) = some (.file []) := by
      rw [hfs, createFS_node _ (by simp)]
      exact (flushFS_attr _ _ _).trans (if_pos rfl)
    have hh : w'.fs.node (fileKey (pathJoin bf name) .header) =
        some (.file (headerText (newBlock env (pathJoin bf name) dt nmemb fsize))) := by
      rw [hfs, createFS_node _ (by simp)]
      exact (flushFS_header _ _ _).trans (if_pos rfl)
    have hsays : HeaderSays w'.fs (freshBlock env (pathJoin bf name) dt nmemb fsize) := by
      unfold HeaderSays FS.bytes
      show (w'.fs.node (fileKey (pathJoin bf name) .header)).isSome = true ∧
        parseHeader (match w'.fs.node (fileKey (pathJoin bf name) .header) with
          | some (.file d) => d | _ => []) = _
      rw [hh]
      exact ⟨rfl, parseHeader_headerText _ (freshBlock_header hdt hm hn hs)⟩
    obtain ⟨es, hes⟩ := hw1
    have hat : AttrsSay env w'.fs (pathJoin bf name) (attrView env.m s1) := by
      refine ⟨s1, { s1 with dirty := false }, ?_, ?_, ⟨es, hes.dirty false⟩, ?_⟩
      · rw [readsV1_congr hv1]; exact hr1
      · unfold readsV2 FS.bytes
        rw [hv2]
        rfl
      · rw [(hes.dirty false).view_eq, hes.view_eq]
    have hop := wpc_blockOpen_says (env := env) (bb := freshBlock env (pathJoin bf name) dt nmemb fsize)
      (w := { w' with faults := noFaults }) (C := fun _ => False) rfl hlen hmeta rfl rfl hsays hat
    obtain ⟨r, w2, e1, _, _, b2, rfl, k1, k2, _⟩ := wpc_returns hop (fun _ h => h)
    refine ⟨b2, w2, e1, k1, k2, k1.dtype, k1.nmemb, k1.fsize, ?_⟩
    intro c hc
    rw [k2] at hc
    exact (List.mem_replicate.mp hc).2

/-- **C12 for blocks that only hold attributes** (names whose last component is `.`). -/
theorem C12_meta_partial (env : Env) (bf name : CStr) (dt : Option CStr) (nmemb : Int) (fsize : List Nat)
    (w w' : World) (b : Block) (hns : NoSilent w.faults) (hlen : (pathJoin bf name).length ≤ 8192)
    (hmeta : isMeta (pathJoin bf name) = true)
    (hold : ∃ s1, readsV1 env w.fs (pathJoin bf name) (attrsetCreate env) = some (0, s1) ∧ WellAttrs env.m s1)
    (h : createBlock env bf name dt nmemb fsize w = .ok (0, some b) w') :
    ∃ b2 w2, openBlock env bf name { w' with faults := noFaults } = .ok (0, some b2) w2 ∧
      b2.basename = b.basename ∧ b2.nfile = 0 ∧ b2.size = 0 := by
  have key : wpc (createBlock env bf name dt nmemb fsize) w
      (fun r w' => r = (-1, none) ∨ r = (0, some (freshMeta env (pathJoin bf name))) ∧
        ∃ fs1, OnlyNewDirs w.fs fs1 ∧ w'.fs = flushFS (newMeta env (pathJoin bf name)) [] fs1)
      (fun _ => True) := by
    unfold createBlock
    rw [wpc_bind]
    apply wpc_mono (wpc_mksubdirR bf name w)
    · rintro rc w1 ⟨f1, h1, h2, _⟩
      rcases h2 with rfl | rfl
      · simp only [ne_eq, not_true_eq_false, if_false]
        apply wpc_mono (wpc_blockCreate_meta hlen hmeta)
        · rintro r w2 ⟨_, _, (h3 | ⟨h3, _, h4⟩), _⟩
          · exact Or.inl h3
          · exact Or.inr ⟨h3, w1.fs, h1, h4 (by rw [f1]; exact hns)⟩
        · intro _ _; trivial
      · simp only [ne_eq, show (-1 : Int) ≠ 0 by decide, not_false_eq_true, if_true]
        rw [wpc_pure]
        exact Or.inl rfl
    · intro _ _; trivial
  rcases wpc_ok key h with h0 | ⟨h0, fs1, hd, hfs⟩
  · exact absurd h0 (by simp)
  · injection h0 with _ h0
    injection h0 with h0
    subst h0
    obtain ⟨s1, hr1, hw1⟩ := readsV1_newDirs hd hold
    have hv1 : w'.fs.node (fileKey (pathJoin bf name) .attr) = fs1.node (fileKey (pathJoin bf name) .attr) := by
      rw [hfs]
      exact flushFS_other _ _ _ _ (fileKey_ne (by simp)) (fileKey_ne (by simp))
    have hv2 : w'.fs.node (fileKey (pathJoin bf name) .attrV2) = some (.file []) := by
      rw [hfs]
      exact (flushFS_attr _ _ _).trans (if_pos rfl)
    have hop := wpc_blockOpen_meta (env := env) (base := pathJoin bf name)
      (w := { w' with faults := noFaults }) (s1 := s1) (s2 := { s1 with dirty := false }) (C := fun _ => False)
      rfl hlen hmeta (by rw [readsV1_congr hv1]; exact hr1)
      (by unfold readsV2 FS.bytes; rw [hv2]; rfl)
    obtain ⟨r, w2, e1, _, _, rfl⟩ := wpc_returns hop (fun _ h => h)
    exact ⟨_, w2, e1, rfl, rfl, rfl⟩

/-- Create a block, then open it: the two return codes. -/
def createOpen (env : Env) (bf name : CStr) (dt : Option CStr) (nmemb : Int) (fsize : List Nat) : M (Int × Int) := do
  let r ← createBlock env bf name dt nmemb fsize
  let s ← openBlock env bf name
  pure (r.1, s.1)

/-- **C12 is false.** Without any fault, `create` returns 0 and `open` fails: for a dtype of unknown kind or
width over 16 bytes, for a negative `nmemb`, and for a dtype with a blank in it. -/
theorem C12_not_reopenable :
    (createOpen exEnv b!"d" b!"x" (some b!"S32") 1 [2] exEmpty).val? = some (0, -1) ∧
    (createOpen exEnv b!"d" b!"x" (some b!"q4") 1 [2] exEmpty).val? = some (0, -1) ∧
    (createOpen exEnv b!"d" b!"x" (some b!"i4") (-1) [2] exEmpty).val? = some (0, -1) ∧
    (createOpen exEnv b!"d" b!"x" (some b!"i 4") 1 [2] exEmpty).val? = some (0, -1) := by
  decide +kernel

-- the hypotheses are met, also after a failed first attempt of the environment
example : (createOpen exEnv b!"d" b!"x" (some b!"i4") 1 [2] exEmpty).val? = some (0, 0) := by decide +kernel
example : (createOpen exEnv b!"d" b!"." none 0 [] exEmpty).val? = some (0, 0) := by decide +kernel

theorem exNoOld : ∃ s1, readsV1 exEnv exEmpty.fs (pathJoin b!"d" b!"x") (attrsetCreate exEnv) = some (0, s1) ∧
    WellAttrs exEnv.m s1 := by
  refine ⟨{ attrsetCreate exEnv with dirty := false }, ?_, [], (attrsetCreate_inv exEnv).dirty false⟩
  have h1 : exEmpty.fs.node (fileKey (pathJoin b!"d" b!"x") .attr) = none := by decide +kernel
  unfold readsV1
  rw [h1]
  rfl

example (w' : World) (b : Block)
    (h : createBlock exEnv b!"d" b!"x" (some b!"i4") 1 [2, 0, 3] exEmpty = .ok (0, some b) w') :
    ∃ b2 w2, openBlock exEnv b!"d" b!"x" { w' with faults := noFaults } = .ok (0, some b2) w2 ∧
      SameShape b b2 ∧ b2.fchecksum = b.fchecksum ∧
      b2.dtype = dtypeNormalize exEnv.m b!"i4" ∧ b2.nmemb = 1 ∧ b2.fsize = [2, 0, 3] ∧
      (∀ c ∈ b2.fchecksum, c = 0) :=
  C12_create_open_partial exEnv b!"d" b!"x" b!"i4" 1 [2, 0, 3] exEmpty w' b
    (by intro i n; simp [exEmpty, noFaults]) (by decide) (by decide)
    ⟨by decide, by decide, by decide, by decide⟩ (by decide) (by decide) (by decide) exNoOld h

end Verif
