import Verif.Proof.Reopen
/-!
# Creating and growing
-/

set_option autoImplicit false

namespace Verif

open Spec

theorem Spec.OnlyNewDirs.refl (fs : FS) : OnlyNewDirs fs fs := fun _ => Or.inl rfl

theorem Spec.OnlyNewDirs.trans {a b c : FS} (h : OnlyNewDirs a b) (h' : OnlyNewDirs b c) : OnlyNewDirs a c := by
  intro k
  rcases h k with h1 | ⟨h1, h2⟩
  · rcases h' k with h3 | ⟨h3, h4⟩
    · exact Or.inl (h3.trans h1)
    · exact Or.inr ⟨h1 ▸ h3, h4⟩
  · rcases h' k with h3 | ⟨h3, h4⟩
    · exact Or.inr ⟨h1, h3.trans h2⟩
    · rw [h2] at h3; exact absurd h3 (by simp)

theorem Spec.OnlyNewDirs.some {a b : FS} (h : OnlyNewDirs a b) {k : Key} (hs : (a.node k).isSome = true) :
    b.node k = a.node k := by
  rcases h k with h1 | ⟨h1, _⟩
  · exact h1
  · rw [h1] at hs; exact absurd hs (by simp)

theorem wpc_mkdirOk {path : CStr} {w : World} :
    wpc (mkdirOk path) w
      (fun b w' => w'.faults = w.faults ∧ OnlyNewDirs w.fs w'.fs ∧
        (∀ k, k ≠ resolve path → w'.fs.node k = w.fs.node k) ∧
        (b = true → (w'.fs.node (resolve path)).isSome = true) ∧
        (w.faults = noFaults → path ≠ [] → (w.fs.node (resolve path)).isSome = true ∨
          (endsInDot path = false ∧ w.fs.node (resolve path).dropLast = some .dir) → b = true))
      (fun w' => w.faults ≠ noFaults ∧ w'.fs = w.fs) := by
  unfold mkdirOk
  rw [wpc_bind, wpc_tick]
  have hrest : wpc (do
      let fs ← getFS
      let k := resolve path
      if path = [] then pure false
      else match fs.node k with
      | some _ => pure true
      | none =>
        if endsInDot path then pure false
        else if fs.node k.dropLast = some .dir then do
          setFS (fs.set k .dir)
          pure true
        else pure false) ({ w with clock := w.clock + 1 } : World)
      (fun b w' => w'.faults = w.faults ∧ OnlyNewDirs w.fs w'.fs ∧
        (∀ k, k ≠ resolve path → w'.fs.node k = w.fs.node k) ∧
        (b = true → (w'.fs.node (resolve path)).isSome = true) ∧
        (w.faults = noFaults → path ≠ [] → (w.fs.node (resolve path)).isSome = true ∨
          (endsInDot path = false ∧ w.fs.node (resolve path).dropLast = some .dir) → b = true))
      (fun w' => w.faults ≠ noFaults ∧ w'.fs = w.fs) := by
    rw [wpc_bind, wpc_getFS]
    dsimp only
    by_cases hp0 : path = []
    · rw [if_pos hp0, wpc_pure]
      exact ⟨rfl, OnlyNewDirs.refl _, fun _ _ => rfl, by simp, fun _ h => absurd hp0 h⟩
    rw [if_neg hp0]
    cases hn : w.fs.node (resolve path) with
    | some n =>
      rw [wpc_pure]
      exact ⟨rfl, OnlyNewDirs.refl _, fun _ _ => rfl, fun _ => by dsimp only; rw [hn]; rfl, fun _ _ _ => rfl⟩
    | none =>
      dsimp only
      split
      · rename_i hd
        rw [wpc_pure]
        exact ⟨rfl, OnlyNewDirs.refl _, fun _ _ => rfl, by simp, fun _ _ h => by simp [hd] at h⟩
      · split
        · rw [wpc_bind, wpc_setFS, wpc_pure]
          refine ⟨rfl, ?_, ?_, fun _ => by dsimp only; rw [FS.set_node]; rfl, fun _ _ _ => rfl⟩
          · intro k
            by_cases hk : k = resolve path
            · subst hk; exact Or.inr ⟨hn, FS.set_node _ _ _⟩
            · exact Or.inl (FS.set_other _ _ _ _ hk)
          · intro k hk
            exact FS.set_other _ _ _ _ hk
        · rename_i hp
          rw [wpc_pure]
          refine ⟨rfl, OnlyNewDirs.refl _, fun _ _ => rfl, by simp, fun _ _ h => ?_⟩
          rcases h with h | h
          · simp at h
          · exact absurd h.2 hp
  cases hf : w.faults w.clock with
  | crash n =>
    rw [wpc_die]
    exact ⟨by intro h; rw [h] at hf; simp [noFaults] at hf, rfl⟩
  | fail =>
    rw [wpc_pure]
    refine ⟨rfl, OnlyNewDirs.refl _, fun _ _ => rfl, by simp, fun h => ?_⟩
    rw [h] at hf; simp [noFaults] at hf
  | none => exact hrest
  | short n => exact hrest
  | silent n => exact hrest

theorem wpc_mksubdirLoop (pathname : CStr) (todo : CStr) : ∀ (done : CStr) (w : World),
    wpc (mksubdirLoop pathname done todo) w
      (fun _ w' => w'.faults = w.faults ∧ OnlyNewDirs w.fs w'.fs)
      (fun w' => w.faults ≠ noFaults ∧ OnlyNewDirs w.fs w'.fs) := by
  induction todo with
  | nil => intro done w; exact ⟨rfl, OnlyNewDirs.refl _⟩
  | cons c rest ih =>
    intro done w
    unfold mksubdirLoop
    split
    · dsimp only
      split
      · rw [wpc_bind]
        apply wpc_mono wpc_mkdirOk
        · rintro b w1 ⟨f1, h1, _⟩
          cases b with
          | true =>
            simp only [if_true]
            apply wpc_mono (ih _ w1)
            · rintro _ w2 ⟨f2, h2⟩; exact ⟨f2.trans f1, h1.trans h2⟩
            · rintro w2 ⟨f2, h2⟩; exact ⟨by rw [← f1]; exact f2, h1.trans h2⟩
          | false =>
            simp only [Bool.false_eq_true, if_false]
            rw [wpc_pure]
            exact ⟨f1, h1⟩
        · rintro w1 ⟨f1, h1⟩; exact ⟨f1, by rw [h1]; exact OnlyNewDirs.refl _⟩
      · exact ih _ w
    · exact ih _ w

theorem wpc_mksubdirR (pathname subdir : CStr) (w : World) :
    wpc (mksubdirR pathname subdir) w
      (fun rc w' => w'.faults = w.faults ∧ OnlyNewDirs w.fs w'.fs ∧ (rc = 0 ∨ rc = -1) ∧
        (rc = 0 → (w'.fs.node (resolve (pathJoin pathname (strdup subdir)))).isSome = true))
      (fun w' => w.faults ≠ noFaults ∧ OnlyNewDirs w.fs w'.fs) := by
  unfold mksubdirR
  dsimp only
  rw [wpc_bind]
  apply wpc_mono (wpc_mksubdirLoop pathname _ _ w)
  · rintro b w1 ⟨f1, h1⟩
    cases b with
    | false =>
      simp only [Bool.false_eq_true, if_false]
      rw [wpc_pure]
      exact ⟨f1, h1, Or.inr rfl, by simp⟩
    | true =>
      simp only [if_true]
      rw [wpc_bind]
      apply wpc_mono wpc_mkdirOk
      · rintro b2 w2 ⟨f2, h2, _, h3, _⟩
        cases b2 with
        | false =>
          simp only [Bool.false_eq_true, if_false]
          rw [wpc_pure]
          exact ⟨f2.trans f1, h1.trans h2, Or.inr rfl, by simp⟩
        | true =>
          simp only [if_true]
          rw [wpc_pure]
          exact ⟨f2.trans f1, h1.trans h2, Or.inl rfl, fun _ => h3 rfl⟩
      · rintro w2 ⟨f2, h2⟩; exact ⟨by rw [← f1]; exact f2, by rw [h2]; exact h1⟩
  · intro w1 h; exact h

/-- Adding components makes a path deeper. -/
theorem resolve_deeper (a b : CStr) : (resolve a).length ≤ (resolve (a ++ 47 :: b)).length := by
  cases a with
  | nil => exact Nat.zero_le _
  | cons c cs =>
    have hab : isAbs ((c :: cs) ++ 47 :: b) = isAbs (c :: cs) := rfl
    rw [resolve_eq, resolve_eq, hab, splitSlash_append, List.filter_append]
    split <;> simp

theorem pathJoin_append (p a b : CStr) : pathJoin p (a ++ b) = pathJoin p a ++ b := by
  unfold pathJoin
  split
  · rfl
  · split <;> simp

/-- Making the directory of a block changes nothing below it. -/
theorem wpc_mksubdirLoop_depth (pathname : CStr) (todo : CStr) : ∀ (done : CStr) (w : World),
    wpc (mksubdirLoop pathname done todo) w
      (fun _ w' => ∀ k : Key, (resolve (pathJoin pathname (done ++ todo))).length < k.length → w'.fs.node k = w.fs.node k)
      (fun _ => True) := by
  induction todo with
  | nil => intro done w k hk; rfl
  | cons c rest ih =>
    intro done w
    have ih' := fun w => ih (done ++ [c]) w
    simp only [List.append_assoc, List.singleton_append] at ih'
    unfold mksubdirLoop
    split
    · rename_i hc
      subst hc
      dsimp only
      split
      · rw [wpc_bind]
        apply wpc_mono wpc_mkdirOk
        · rintro b w1 ⟨f1, _, h1, _⟩
          have hdeep := resolve_deeper (pathJoin pathname done) rest
          rw [← pathJoin_append] at hdeep
          have hw1 : ∀ k : Key, (resolve (pathJoin pathname (done ++ 47 :: rest))).length < k.length → w1.fs.node k = w.fs.node k := by
            intro k hk
            apply h1 k
            intro he
            rw [he] at hk
            omega
          cases b with
          | true =>
            simp only [if_true]
            apply wpc_mono (ih' w1)
            · intro _ w2 h2 k hk; exact (h2 k hk).trans (hw1 k hk)
            · intro _ _; trivial
          | false =>
            simp only [Bool.false_eq_true, if_false]
            rw [wpc_pure]
            exact hw1
        · intro _ _; trivial
      · exact ih' w
    · exact ih' w

theorem wpc_mksubdirR_depth (pathname subdir : CStr) (w : World) :
    wpc (mksubdirR pathname subdir) w
      (fun rc w' => w'.faults = w.faults ∧ OnlyNewDirs w.fs w'.fs ∧ (rc = 0 ∨ rc = -1) ∧
        (rc = 0 → (w'.fs.node (resolve (pathJoin pathname (strdup subdir)))).isSome = true) ∧
        ∀ k : Key, (resolve (pathJoin pathname (strdup subdir))).length < k.length → w'.fs.node k = w.fs.node k)
      (fun _ => True) := by
  apply wpc_mono (wpc_and (wpc_mksubdirR pathname subdir w) (Q' := fun _ w' =>
    ∀ k : Key, (resolve (pathJoin pathname (strdup subdir))).length < k.length → w'.fs.node k = w.fs.node k) (C' := fun _ => True) ?_)
  · rintro r w' ⟨⟨h1, h2, h3, h4⟩, h5⟩
    exact ⟨h1, h2, h3, h4, h5⟩
  · intro _ _; trivial
  · unfold mksubdirR
    dsimp only
    rw [wpc_bind]
    apply wpc_mono (wpc_mksubdirLoop_depth pathname _ _ w)
    · intro b w1 h1
      simp only [List.nil_append] at h1
      cases b with
      | false =>
        simp only [Bool.false_eq_true, if_false]
        rw [wpc_pure]
        exact h1
      | true =>
        simp only [if_true]
        rw [wpc_bind]
        apply wpc_mono wpc_mkdirOk
        · rintro b2 w2 ⟨_, _, h2, _⟩
          have : ∀ k : Key, (resolve (pathJoin pathname (strdup subdir))).length < k.length → w2.fs.node k = w.fs.node k := by
            intro k hk
            rw [h2 k (by intro he; rw [he] at hk; omega)]
            exact h1 k hk
          cases b2 <;> simp only [if_true, Bool.false_eq_true, if_false] <;> rw [wpc_pure] <;> exact this
        · intro _ _; trivial
    · intro _ _; trivial

/-! ## Truncating data files -/

theorem resolve_ne_fileKey (base : CStr) (id : FileId) : resolve base ≠ fileKey base id := by
  rw [fileKey_eq]; intro h; simpa using congrArg List.length h

theorem truncFS_succ (base : CStr) : ∀ (n i : Nat) (fs : FS), truncFS base i (n + 1) fs =
    (truncFS base i n fs).set (fileKey base (.data (i + n))) (.file []) := by
  intro n
  induction n with
  | zero => intro i fs; rfl
  | succ n ih =>
    intro i fs
    show truncFS base (i + 1) (n + 1) _ = _
    rw [ih (i + 1)]
    have : i + 1 + n = i + (n + 1) := by omega
    rw [this]
    rfl

theorem truncFS_other (base : CStr) (k : Key) : ∀ (n i : Nat) (fs : FS),
    (∀ f, i ≤ f → f < i + n → k ≠ fileKey base (.data f)) → (truncFS base i n fs).node k = fs.node k := by
  intro n
  induction n with
  | zero => intro i fs _; rfl
  | succ n ih =>
    intro i fs h
    show (truncFS base (i + 1) n _).node k = _
    rw [ih (i + 1) _ (fun f h1 h2 => h f (by omega) (by omega)), FS.set_other _ _ _ _ (h i (by omega) (by omega))]

theorem truncFS_data (base : CStr) : ∀ (n i : Nat) (fs : FS) (f : Nat), i ≤ f → f < i + n →
    (truncFS base i n fs).node (fileKey base (.data f)) = some (.file []) := by
  intro n
  induction n with
  | zero => intro i fs f _ _; omega
  | succ n ih =>
    intro i fs f h1 h2
    rw [truncFS_succ]
    by_cases hf : f = i + n
    · subst hf; exact FS.set_node _ _ _
    · rw [FS.set_other _ _ _ _ (fileKey_ne (by simpa using hf))]
      exact ih i fs f h1 (by omega)

theorem wpc_truncFiles (base : CStr) : ∀ (n i : Nat) (w : World),
    wpc (truncFiles base i n) w
      (fun b w' => w'.faults = w.faults ∧ ∃ j, j ≤ n ∧ w'.fs = truncFS base i j w.fs ∧ (b = true → j = n) ∧
        (w.faults = noFaults → w.fs.node (resolve base) = some .dir →
          (∀ f, i ≤ f → f < i + n → w.fs.node (fileKey base (.data f)) ≠ some .dir) → b = true))
      (fun w' => w.faults ≠ noFaults ∧ ∃ j, j ≤ n ∧ w'.fs = truncFS base i j w.fs) := by
  intro n
  induction n with
  | zero => intro i w; exact ⟨rfl, 0, Nat.le_refl _, rfl, fun _ => rfl, fun _ _ _ => rfl⟩
  | succ n ih =>
    intro i w
    have hkey : resolve (filePath base (.data i)) = fileKey base (.data i) := rfl
    have hdrop : (fileKey base (.data i)).dropLast = resolve base := by rw [fileKey_eq]; simp
    unfold truncFiles
    rw [wpc_bind]
    unfold openAFile
    apply wpc_fopen_w
    · intro b w1 f1 h0 h1 h2
      cases b with
      | false =>
        simp only [Bool.false_eq_true, if_false]
        rw [wpc_pure]
        refine ⟨f1, 0, by omega, h0 rfl, by simp, ?_⟩
        intro hnf hd hnd
        have := h2 hnf (by rw [hkey]; exact hnd i (by omega) (by omega)) (by rw [hkey, hdrop]; exact hd)
        exact absurd this (by simp)
      | true =>
        simp only [if_true]
        obtain ⟨e1, _⟩ := h1 rfl
        rw [hkey] at e1
        apply wpc_mono (ih (i + 1) w1)
        · rintro b2 w2 ⟨f2, j, hj, e2, h3, h4⟩
          refine ⟨f2.trans f1, j + 1, by omega, by rw [e2, e1]; rfl, fun h => by rw [h3 h], ?_⟩
          intro hnf hd hnd
          apply h4 (f1.trans hnf)
          · rw [e1, FS.set_other _ _ _ _ (by rw [fileKey_eq]; intro h; simpa using congrArg List.length h)]
            exact hd
          · intro f h5 h6
            rw [e1, FS.set_other _ _ _ _ (fileKey_ne (by simp; omega))]
            exact hnd f (by omega) (by omega)
        · rintro w2 ⟨f2, j, hj, e2⟩
          exact ⟨by rw [← f1]; exact f2, j + 1, by omega, by rw [e2, e1]; rfl⟩
    · intro w1 h1 hnf
      exact ⟨hnf, 0, by omega, h1⟩

/-! ## Creating a block -/

/-- The handle that `_big_block_create_internal` builds. -/
def newBlock (env : Env) (base dt : CStr) (nmemb : Int) (fsize : List Nat) : Block :=
  ⟨dtypeNormalize env.m dt, nmemb, base, (runningSums 0 fsize).getLastD 0, fsize, runningSums 0 fsize,
    List.replicate fsize.length 0, fsize.length, { attrsetCreate env with dirty := true }, true⟩

/-- The same without the dirty flags. -/
def freshBlock (env : Env) (base dt : CStr) (nmemb : Int) (fsize : List Nat) : Block :=
  { newBlock env base dt nmemb fsize with
    dirty := false, attrset := { attrsetCreate env with dirty := false } }

theorem wpc_createInternal {env : Env} {base dt : CStr} {nmemb : Int} {fsize : List Nat} {w : World}
    (hlen : base.length ≤ 8192) (hmeta : isMeta base = false) :
    wpc (createInternal env base (some dt) nmemb fsize) w
      (fun r w' => w'.faults = w.faults ∧ FlushOut (newBlock env base dt nmemb fsize) [] w.fs w'.fs ∧
        (r = (-1, none) ∨ r = (0, some (freshBlock env base dt nmemb fsize)) ∧ hasBlank base = false ∧
          (NoSilent w.faults → w'.fs = flushFS (newBlock env base dt nmemb fsize) [] w.fs)) ∧
        (w.faults = noFaults → DirOk w.fs base → hasBlank base = false → r.1 = 0))
      (fun w' => w.faults ≠ noFaults ∧ FlushOut (newBlock env base dt nmemb fsize) [] w.fs w'.fs) := by
  have hstr : strdup base = base := by unfold strdup; exact List.take_of_length_le hlen
  unfold createInternal
  split
  · rename_i hb
    rw [wpc_pure]
    exact ⟨rfl, ⟨w.fs, Or.inl rfl, Or.inl rfl⟩, Or.inl rfl, fun _ _ h => by rw [hb] at h; exact absurd h (by simp)⟩
  · rename_i hb
    have hb : hasBlank base = false := by simpa using hb
    simp only [hstr, hmeta, Bool.not_false, if_true]
    rw [wpc_bind]
    apply wpc_mono (wpc_blockFlush env (newBlock env base dt nmemb fsize) [] { attrsetCreate env with dirty := false } w
      (fun _ => rfl))
    · rintro ⟨rc, bb⟩ w1 ⟨f1, h1, h2, h3, h4⟩
      simp only at h2 h3 h4 ⊢
      rcases h2 with rfl | rfl
      · simp only [ne_eq, not_true_eq_false, if_false]
        rw [wpc_pure]
        obtain ⟨e, h3⟩ := h3 rfl
        refine ⟨f1, h1, Or.inr ⟨?_, hb, h3⟩, fun _ _ _ => rfl⟩
        rw [e]
        rfl
      · simp only [ne_eq, show (-1 : Int) ≠ 0 by decide, not_false_eq_true, if_true]
        rw [wpc_pure]
        exact ⟨f1, h1, Or.inl rfl, fun h5 h6 _ => h4 h5 h6⟩
    · intro w1 h; exact h

/-- The disk after a complete creation. -/
def createFS (env : Env) (base dt : CStr) (nmemb : Int) (fsize : List Nat) (fs : FS) : FS :=
  truncFS base 0 fsize.length (flushFS (newBlock env base dt nmemb fsize) [] fs)

/-- What an incomplete creation can have done. -/
def CreateOut (env : Env) (base dt : CStr) (nmemb : Int) (fsize : List Nat) (fs fs' : FS) : Prop :=
  ∃ fs1 j, FlushOut (newBlock env base dt nmemb fsize) [] fs fs1 ∧ j ≤ fsize.length ∧ fs' = truncFS base 0 j fs1

theorem wpc_blockCreate {env : Env} {base dt : CStr} {nmemb : Int} {fsize : List Nat} {w : World}
    (hlen : base.length ≤ 8192) (hmeta : isMeta base = false) :
    wpc (blockCreate env base (some dt) nmemb fsize) w
      (fun r w' => w'.faults = w.faults ∧ CreateOut env base dt nmemb fsize w.fs w'.fs ∧
        (r = (-1, none) ∨ r = (0, some (freshBlock env base dt nmemb fsize)) ∧ hasBlank base = false ∧
          (NoSilent w.faults → w'.fs = createFS env base dt nmemb fsize w.fs)) ∧
        (w.faults = noFaults → DirOk w.fs base → hasBlank base = false →
          (∀ f, f < fsize.length → w.fs.node (fileKey base (.data f)) ≠ some .dir) → r.1 = 0))
      (fun w' => w.faults ≠ noFaults ∧ CreateOut env base dt nmemb fsize w.fs w'.fs) := by
  unfold blockCreate
  rw [wpc_bind]
  apply wpc_mono (wpc_createInternal hlen hmeta)
  · rintro r w1 ⟨f1, h1, (rfl | ⟨rfl, hb, h2⟩), h3⟩
    · change wpc (pure ((-1 : Int), (none : Option Block))) w1 _ _
      rw [wpc_pure]
      exact ⟨f1, ⟨w1.fs, 0, h1, by omega, rfl⟩, Or.inl rfl, fun h4 h5 h6 _ => h3 h4 h5 h6⟩
    · change wpc (truncFiles base 0 fsize.length >>= fun b => if b = true then
          pure ((0 : Int), some (freshBlock env base dt nmemb fsize)) else pure (-1, none)) w1 _ _
      rw [wpc_bind]
      apply wpc_mono (wpc_truncFiles base fsize.length 0 w1)
      · rintro b w2 ⟨f2, j, hj, e2, h4, h5⟩
        cases b with
        | false =>
          simp only [Bool.false_eq_true, if_false]
          rw [wpc_pure]
          refine ⟨f2.trans f1, ⟨w1.fs, j, h1, hj, e2⟩, Or.inl rfl, fun hnf hd hbl hdat => ?_⟩
          have e1 := h2 (by rw [hnf]; intro i n; simp [noFaults])
          have hother : ∀ k, k ≠ fileKey base .header → k ≠ fileKey base .attrV2 →
              (flushFS (newBlock env base dt nmemb fsize) [] w.fs).node k = w.fs.node k :=
            flushFS_other (newBlock env base dt nmemb fsize) [] w.fs
          have : false = true := by
            apply h5 (f1.trans hnf)
            · rw [e1, hother _ (resolve_ne_fileKey _ _) (resolve_ne_fileKey _ _)]
              exact hd.dir
            · intro f _ hf
              rw [e1, hother _ (fileKey_ne (by simp)) (fileKey_ne (by simp))]
              exact hdat f (by omega)
          exact absurd this (by simp)
        | true =>
          simp only [if_true]
          rw [wpc_pure]
          refine ⟨f2.trans f1, ⟨w1.fs, j, h1, hj, e2⟩, Or.inr ⟨rfl, hb, fun hns => ?_⟩, fun _ _ _ _ => rfl⟩
          rw [e2, h4 rfl, h2 hns]
          rfl
      · rintro w2 ⟨f2, j, hj, e2⟩
        exact ⟨by rw [← f1]; exact f2, w1.fs, j, h1, hj, e2⟩
  · rintro w1 ⟨h1, h2⟩
    exact ⟨h1, w1.fs, 0, h2, by omega, rfl⟩

end Verif
