import Verif.Model.PyFile
import Verif.Props.Tree
/-!
# Properties of Python's file objects

C96: a directory of blocks used as a file of its own. C97: the list of blocks an object keeps, and pickling.
-/

set_option autoImplicit false

namespace Verif

open Spec

/-! ## Helpers -/

theorem statOk_plain (path : CStr) (w : World) (hnf : w.faults = noFaults) :
    statOk path w = .ok (decide (path ≠ []) && (w.fs.node (resolve path)).isSome) { w with clock := w.clock + 1 } := by
  unfold statOk
  show (match w.faults w.clock with
    | .crash _ => die
    | .fail => pure false
    | _ => do
      let fs ← getFS
      pure (decide (path ≠ []) && (fs.node (resolve path)).isSome)) _ = _
  rw [hnf]
  rfl

theorem lstripSlash_end (key : CStr) (h : key.getLast? = some 47) : lstripSlash key = [] ∨ (lstripSlash key).getLast? = some 47 := by
  unfold lstripSlash
  induction key with
  | nil => simp at h
  | cons c key ih =>
    rw [List.dropWhile_cons]
    by_cases hc : c = 47
    · rw [if_pos (by simpa using hc)]
      cases key with
      | nil => left; rfl
      | cons d key => exact ih (by simpa using h)
    · rw [if_neg (by simpa using hc)]
      right; exact h

theorem lstripSlash_head (key : CStr) : (lstripSlash key).head? ≠ some 47 := by
  unfold lstripSlash
  induction key with
  | nil => simp
  | cons c key ih =>
    rw [List.dropWhile_cons]
    by_cases hc : c = 47
    · rw [if_pos (by simpa using hc)]; exact ih
    · rw [if_neg (by simpa using hc)]; simpa using hc

theorem lstripSlash_names (key : CStr) : names (lstripSlash key) = names key := by
  unfold lstripSlash
  induction key with
  | nil => rfl
  | cons c key ih =>
    rw [List.dropWhile_cons]
    by_cases hc : c = 47
    · rw [if_pos (by simpa using hc), ih]
      have := names_append [] key
      subst hc
      simpa [names_nil] using this.symm
    · rw [if_neg (by simpa using hc)]

theorem pathJoin_sep (base x : CStr) (hb : base ≠ []) :
    pathJoin base x = base ++ (if base.getLast? = some 47 then [] else [47]) ++ x := by
  unfold pathJoin
  rw [if_neg (by simpa using hb)]
  split <;> simp

theorem osJoin_base (base key : CStr) (hb : base ≠ []) (hk : key.head? ≠ some 47) : osJoin base key = pathJoin base key := by
  rw [pathJoin_sep _ _ hb]
  unfold osJoin
  rw [if_neg hk]
  simp only [hb, false_or]
  split <;> simp

/-- The path of a block below a directory that is written with a slash at its end. -/
theorem osJoin_pathJoin (base key name : CStr) (hb : base ≠ []) (hk : key.head? ≠ some 47)
    (he : key = [] ∨ key.getLast? = some 47) :
    pathJoin (osJoin base key) name = pathJoin base (key ++ name) := by
  rw [osJoin_base base key hb hk]
  have hl : (pathJoin base key).getLast? = some 47 := by
    rw [pathJoin_sep _ _ hb]
    rcases he with rfl | he
    · rw [List.append_nil, List.getLast?_append]
      split
      · simpa using ‹_›
      · rfl
    · rw [List.getLast?_append, he]; rfl
  have hne : pathJoin base key ≠ [] := by
    intro h; rw [h] at hl; simp at hl
  rw [pathJoin_sep (pathJoin base key) name hne, if_pos hl, pathJoin_sep _ _ hb, pathJoin_sep _ _ hb]
  simp

theorem joinNames_append (cs ds : List CStr) (h1 : cs ≠ []) (h2 : ds ≠ []) :
    joinNames (cs ++ ds) = joinNames cs ++ 47 :: joinNames ds := by
  induction cs with
  | nil => simp at h1
  | cons c cs ih =>
    cases cs with
    | nil =>
      cases ds with
      | nil => simp at h2
      | cons d ds => rfl
    | cons c' cs =>
      show c ++ 47 :: joinNames (c' :: cs ++ ds) = c ++ 47 :: joinNames (c' :: cs) ++ 47 :: joinNames ds
      rw [ih (by simp)]
      simp

theorem insertName_perm (a : CStr) (l : List CStr) : (insertName a l).Perm (a :: l) := by
  induction l with
  | nil => exact List.Perm.refl _
  | cons b l ih =>
    unfold insertName
    split
    · exact (List.Perm.cons b ih).trans (List.Perm.swap a b l)
    · exact List.Perm.refl _

theorem sortNames_perm (l : List CStr) : (sortNames l).Perm l := by
  induction l with
  | nil => exact List.Perm.refl _
  | cons a l ih =>
    exact (insertName_perm a _).trans (List.Perm.cons a ih)

theorem pySubfile_plain (f : PyFile) (key : CStr) (w : World) (hnf : w.faults = noFaults) (hb : f.basename ≠ [])
    (hlen : (osJoin f.basename (lstripSlash key)).length ≤ 8192) :
    pySubfile f key w = .ok (if (w.fs.node (resolve f.basename ++ names key)).isSome = true then
      .ok ⟨osJoin f.basename (lstripSlash key), none⟩ else .error .error) { w with clock := w.clock + 1 } := by
  have hres : resolve (osJoin f.basename (lstripSlash key)) = resolve f.basename ++ names key := by
    rw [osJoin_base _ _ hb (lstripSlash_head key), resolve_join _ _ hb, lstripSlash_names]
  have hne : osJoin f.basename (lstripSlash key) ≠ [] := by
    rw [osJoin_base _ _ hb (lstripSlash_head key), pathJoin_sep _ _ hb]
    simp [hb]
  have hd : strdup (osJoin f.basename (lstripSlash key)) = osJoin f.basename (lstripSlash key) := List.take_of_length_le hlen
  have h1 := statOk_plain (osJoin f.basename (lstripSlash key)) w hnf
  rw [hres, decide_eq_true hne, Bool.true_and] at h1
  show (M.bind (M.bind (statOk (osJoin f.basename (lstripSlash key))) _) _) w = _
  simp only [M.bind, h1]
  cases hn : (w.fs.node (resolve f.basename ++ names key)).isSome with
  | false => rfl
  | true => simp only [if_true, hd]; rfl

theorem pySubfile_basename (f g : PyFile) (key : CStr) (w w' : World) (hlen : (osJoin f.basename (lstripSlash key)).length ≤ 8192)
    (h : pySubfile f key w = .ok (.ok g) w') : g = ⟨osJoin f.basename (lstripSlash key), none⟩ := by
  have hd : strdup (osJoin f.basename (lstripSlash key)) = osJoin f.basename (lstripSlash key) := List.take_of_length_le hlen
  have h : (M.bind (M.bind (statOk (osJoin f.basename (lstripSlash key))) _) _) w = _ := h
  simp only [M.bind] at h
  cases h1 : statOk (osJoin f.basename (lstripSlash key)) w with
  | ok b w1 =>
    rw [h1] at h
    cases b with
    | true =>
      simp only [if_true, hd] at h
      injection h with h _
      injection h with h
      exact h.symm
    | false =>
      injection h with h _
      cases h
  | _ => rw [h1] at h; cases h

/-! ## C96 -/

/-- **C96, which file.** Without faults `file[key]`, for a key that ends with a slash, is a file if there is something of that name in the
file's directory; slashes at the beginning of the key do not count. If there is nothing it is an exception. Nothing changes on the disk. -/
theorem C96_exists (env : Env) (f : PyFile) (key : CStr) (w : World) (hnf : w.faults = noFaults) (hb : f.basename ≠ [])
    (hk : key.getLast? = some 47) (hlen : (osJoin f.basename (lstripSlash key)).length ≤ 8192) :
    ∃ r w', pyFileGet env f key w = .ok r w' ∧ w'.fs = w.fs ∧
      ((w.fs.node (resolve f.basename ++ names key)).isSome = true →
        ∃ g, r = .ok (.inl g) ∧ resolve g.basename = resolve f.basename ++ names key) ∧
      (w.fs.node (resolve f.basename ++ names key) = none → r = .error .error) := by
  have h1 := pySubfile_plain f key w hnf hb hlen
  have hres : resolve (osJoin f.basename (lstripSlash key)) = resolve f.basename ++ names key := by
    rw [osJoin_base _ _ hb (lstripSlash_head key), resolve_join _ _ hb, lstripSlash_names]
  unfold pyFileGet
  rw [if_pos hk]
  show ∃ r w', (M.bind (pySubfile f key) _) w = _ ∧ _
  simp only [M.bind, h1]
  cases hn : w.fs.node (resolve f.basename ++ names key) with
  | none => exact ⟨_, _, rfl, rfl, fun h => absurd h (by simp), fun _ => rfl⟩
  | some x => exact ⟨_, _, rfl, rfl, fun _ => ⟨_, rfl, hres⟩, fun h => absurd h (by simp)⟩

/-- **C96, its blocks are those of the file.** Opening block `name` of the file `file['a/']` is opening the block `a/name` of the file: the
same block, the same exceptions, under any failures. -/
theorem C96_open (env : Env) (f g : PyFile) (key name : CStr) (w w' : World) (hb : f.basename ≠ []) (hk : key.getLast? = some 47)
    (hlen : (osJoin f.basename (lstripSlash key)).length ≤ 8192) (h : pyFileGet env f key w = .ok (.ok (.inl g)) w') :
    pyFileOpen env g name = pyFileOpen env f (lstripSlash key ++ name) := by
  have h1 : pySubfile f key w = .ok (.ok g) w' := by
    unfold pyFileGet at h
    rw [if_pos hk] at h
    have h : (M.bind (pySubfile f key) _) w = _ := h
    simp only [M.bind] at h
    cases h2 : pySubfile f key w with
    | ok r w1 =>
      rw [h2] at h
      cases r with
      | error e => injection h with h _; cases h
      | ok g' =>
        injection h with h hw
        injection h with h
        injection h with h
        rw [h, hw]
    | _ => rw [h2] at h; cases h
  rw [pySubfile_basename f g key w w' hlen h1]
  unfold pyFileOpen openBlock
  rw [osJoin_pathJoin _ _ _ hb (lstripSlash_head key) (lstripSlash_end key hk)]

theorem insertName_ordered {a : CStr} {l : List CStr} (h : l.Pairwise fun x y => strcmp x y = .lt) (ha : a ∉ l) :
    (insertName a l).Pairwise fun x y => strcmp x y = .lt := by
  induction l with
  | nil => simp [insertName]
  | cons b l ih =>
    rw [List.pairwise_cons] at h
    unfold insertName
    split
    · rename_i hgt
      refine List.pairwise_cons.mpr ⟨fun x hx => ?_, ih h.2 fun hm => ha (by simp [hm])⟩
      rcases List.mem_cons.mp ((insertName_perm a l).mem_iff.mp hx) with rfl | hx
      · exact (strcmp_gt_iff _ _).mp hgt
      · exact h.1 x hx
    · rename_i hgt
      have hlt : strcmp a b = .lt := by
        cases hc : strcmp a b with
        | lt => rfl
        | eq => exact absurd ((strcmp_eq_iff a b).mp hc) fun he => ha (by simp [he])
        | gt => exact absurd hc hgt
      refine List.pairwise_cons.mpr ⟨fun x hx => ?_, List.pairwise_cons.mpr h⟩
      rcases List.mem_cons.mp hx with rfl | hx
      · exact hlt
      · exact strcmp_lt_trans hlt (h.1 x hx)

theorem sortNames_ordered {l : List CStr} (h : l.Nodup) : (sortNames l).Pairwise fun x y => strcmp x y = .lt := by
  induction l with
  | nil => simp [sortNames]
  | cons a l ih =>
    rw [List.nodup_cons] at h
    exact insertName_ordered (ih h.2) fun hm => h.1 ((sortNames_perm l).mem_iff.mp hm)

/-- Without faults the list that Python makes is that of the blocks below the file. -/
theorem pyListBlocks_spec (sort : List CStr → List CStr) (hsort : ∀ l, (sort l).Perm l) (f : PyFile) (w : World)
    (hnf : w.faults = noFaults) (ht : TreeOk w.fs) (hb : f.basename ≠ [])
    (hlen : ∀ cs, Listed w.fs (resolve f.basename) cs → (joinNames cs).length ≤ 8192) :
    ∃ l w', pyListBlocks sort f w = .ok l w' ∧ w'.fs = w.fs ∧ (l.Pairwise fun x y => strcmp x y = .lt) ∧
      ∀ name, name ∈ l ↔ ∃ cs, Listed w.fs (resolve f.basename) cs ∧ name = joinNames cs := by
  obtain ⟨l, w', e, hfs, hnd, hmem⟩ := C36_list sort hsort f.basename w hnf ht hb hlen
  refine ⟨sortNames l, w', ?_, hfs, sortNames_ordered hnd, fun name => ?_⟩
  · show (M.bind (bigFileList sort f.basename) _) w = _
    simp only [M.bind, e]
    rfl
  · rw [(sortNames_perm l).mem_iff]; exact hmem name

/-- The blocks below a directory. -/
theorem listed_below {fs : FS} {r : Key} {cs : List CStr} (hn : ∀ c ∈ cs, IsName c) (hdots : ∀ c ∈ cs, c.head? ≠ some 46)
    (hway : ∀ j, 0 < j → j ≤ cs.length → ¬ HasHeader fs (r ++ cs.take j)) (ds : List CStr) (hds : ds ≠ []) :
    Listed fs (r ++ cs) ds ↔ Listed fs r (cs ++ ds) := by
  constructor
  · intro h
    refine ⟨by simp [hds], ?_, ?_, ?_, ?_⟩
    · intro c hc
      rcases List.mem_append.mp hc with hc | hc
      · exact hn c hc
      · exact h.names c hc
    · intro c hc
      rcases List.mem_append.mp hc with hc | hc
      · exact hdots c hc
      · exact h.nodots c hc
    · rw [← List.append_assoc]; exact h.header
    · intro j h0 hj
      by_cases hle : j ≤ cs.length
      · rw [List.take_append_of_le_length hle]; exact hway j h0 hle
      · obtain ⟨i, rfl⟩ := Nat.exists_eq_add_of_lt (Nat.lt_of_not_le hle)
        have hj' : i + 1 < ds.length := by rw [List.length_append] at hj; omega
        have : (cs ++ ds).take (cs.length + i + 1) = cs ++ ds.take (i + 1) := by
          rw [List.take_append, List.take_of_length_le (by omega)]
          congr 2; omega
        rw [this, ← List.append_assoc]
        exact h.outer (i + 1) (by omega) hj'
  · intro h
    refine ⟨hds, fun c hc => h.names c (by simp [hc]), fun c hc => h.nodots c (by simp [hc]), ?_, ?_⟩
    · rw [List.append_assoc]; exact h.header
    · intro j h0 hj
      have := h.outer (cs.length + j) (by omega) (by rw [List.length_append]; omega)
      rw [List.take_append, List.take_of_length_le (by omega : cs.length ≤ cs.length + j),
        show cs.length + j - cs.length = j by omega, ← List.append_assoc] at this
      exact this

/-- **C96, its list of blocks.** Without faults the file `file['a/']` lists the names that follow `a/` in the list of the file,
provided that no directory on the way is itself a block and no name on the way begins with a dot (what is below such a directory is
in no list of the file). -/
theorem C96_blocks (sort : List CStr → List CStr) (hsort : ∀ l, (sort l).Perm l) (f : PyFile) (key : CStr) (cs : List CStr) (w : World)
    (hnf : w.faults = noFaults) (ht : TreeOk w.fs) (hb : f.basename ≠ []) (hcs : names key = cs) (hne : cs ≠ [])
    (hlen : (osJoin f.basename (lstripSlash key)).length ≤ 8192)
    (hl : ∀ ds, Listed w.fs (resolve f.basename) ds → (joinNames ds).length ≤ 8192)
    (hdots : ∀ c ∈ cs, c.head? ≠ some 46)
    (hway : ∀ j, 0 < j → j ≤ cs.length → ¬ HasHeader w.fs (resolve f.basename ++ cs.take j))
    (hdir : (w.fs.node (resolve f.basename ++ cs)).isSome = true) :
    ∃ l w1 g w2 l' w3, pyListBlocks sort f w = .ok l w1 ∧ w1.fs = w.fs ∧ pySubfile f key w = .ok (.ok g) w2 ∧ w2.fs = w.fs ∧
      pyListBlocks sort g w2 = .ok l' w3 ∧ w3.fs = w.fs ∧ (l'.Pairwise fun x y => strcmp x y = .lt) ∧
      ∀ b, b ∈ l' ↔ joinNames cs ++ '/'.toUInt8 :: b ∈ l := by
  obtain ⟨l, w1, e1, f1, _, m1⟩ := pyListBlocks_spec sort hsort f w hnf ht hb hl
  have e2 := pySubfile_plain f key w hnf hb hlen
  rw [hcs, if_pos hdir] at e2
  have hn : ∀ c ∈ cs, IsName c := by rw [← hcs]; exact names_isName key
  have hres : resolve (osJoin f.basename (lstripSlash key)) = resolve f.basename ++ cs := by
    rw [osJoin_base _ _ hb (lstripSlash_head key), resolve_join _ _ hb, lstripSlash_names, hcs]
  have hne' : osJoin f.basename (lstripSlash key) ≠ [] := by
    rw [osJoin_base _ _ hb (lstripSlash_head key), pathJoin_sep _ _ hb]
    simp [hb]
  have hbelow := listed_below (fs := w.fs) (r := resolve f.basename) hn hdots hway
  obtain ⟨l', w3, e3, f3, n3, m3⟩ := pyListBlocks_spec sort hsort ⟨osJoin f.basename (lstripSlash key), none⟩
    { w with clock := w.clock + 1 } hnf ht hne' (by
      intro ds hds
      rw [hres] at hds
      have h := hl _ ((hbelow ds hds.ne).mp hds)
      rw [joinNames_append cs ds hne hds.ne, List.length_append, List.length_cons] at h
      omega)
  refine ⟨l, w1, _, _, l', w3, e1, f1, e2, rfl, e3, f3, n3, fun b => ?_⟩
  rw [m1, m3, hres, show '/'.toUInt8 = (47 : Byte) from rfl]
  constructor
  · rintro ⟨ds, hds, rfl⟩
    exact ⟨cs ++ ds, (hbelow ds hds.ne).mp hds, (joinNames_append cs ds hne hds.ne).symm⟩
  · rintro ⟨es, hes, he⟩
    have h1 : es = cs ++ names b := by
      have := congrArg names he
      rw [names_append, names_joinNames cs hn, names_joinNames es hes.names] at this
      exact this.symm
    have hne2 : names b ≠ [] := by
      intro h0
      rw [h1, h0, List.append_nil] at he
      have := congrArg List.length he
      simp at this
    rw [h1, joinNames_append cs _ hne hne2] at he
    have he : b = joinNames (names b) := by
      have := List.append_cancel_left he
      injection this
    exact ⟨names b, (hbelow _ hne2).mpr (h1 ▸ hes), he⟩

/-- **C96, MPI**: slashes at the beginning of a key do count for `FileMPI`: `file['/a/']` is the file `/a/`, which need not be in the file. -/
theorem C96_mpi_leaves_partial (f : PyFile) (key : CStr) (hk : key.head? = some '/'.toUInt8) : pySubfileMpi f key = pyFileInit key false := by
  have hk : key.head? = some 47 := hk
  unfold pySubfileMpi osJoin
  rw [if_pos hk]

/-- Without slashes at the beginning it is the same as without MPI. -/
theorem C96_mpi (f : PyFile) (key : CStr) (hk : key.head? ≠ some '/'.toUInt8) : pySubfileMpi f key = pySubfile f key := by
  have hk : key.head? ≠ some 47 := hk
  have : lstripSlash key = key := by
    unfold lstripSlash
    cases key with
    | nil => rfl
    | cons c key =>
      rw [List.dropWhile_cons, if_neg]
      simpa using hk
  unfold pySubfileMpi pySubfile
  rw [this]

/-! ## C97 -/

/-- **C97, the list of blocks.** The first time it is asked for, without faults, it is the list of the blocks that are on the disk, in the
order of their bytes; `in` agrees with it; and the object keeps it. -/
theorem C97_first (sort : List CStr → List CStr) (hsort : ∀ l, (sort l).Perm l) (f : PyFile) (w : World) (hfresh : f.blocks = none)
    (hnf : w.faults = noFaults) (ht : TreeOk w.fs) (hb : f.basename ≠ [])
    (hlen : ∀ cs, Listed w.fs (resolve f.basename) cs → (joinNames cs).length ≤ 8192) :
    ∃ l f' w', pyFileBlocks sort f w = .ok (l, f') w' ∧ w'.fs = w.fs ∧ (l.Pairwise fun x y => strcmp x y = .lt) ∧
      (∀ name, name ∈ l ↔ ∃ cs, Listed w.fs (resolve f.basename) cs ∧ name = joinNames cs) ∧
      (∀ key, pyFileContains sort f key w = .ok (decide (key ∈ l), f') w') ∧
      f'.basename = f.basename ∧ ∀ w2, pyFileBlocks sort f' w2 = .ok (l, f') w2 := by
  obtain ⟨l, w', e, hfs, hnd, hmem⟩ := pyListBlocks_spec sort hsort f w hnf ht hb hlen
  have e2 : pyFileBlocks sort f w = .ok (l, { f with blocks := some l }) w' := by
    unfold pyFileBlocks
    rw [hfresh]
    show (M.bind (pyListBlocks sort f) _) w = _
    simp only [M.bind, e]
    rfl
  refine ⟨l, _, w', e2, hfs, hnd, hmem, fun key => ?_, rfl, fun w2 => rfl⟩
  show (M.bind (pyFileBlocks sort f) _) w = _
  simp only [M.bind, e2]
  rfl

/-- **C97, after creating a block through the object** the list is that of the blocks then on the disk, whatever it was before. (`w1` is
what `big_file_create_block` leaves.) -/
theorem C97_created (env : Env) (sort : List CStr → List CStr) (hsort : ∀ l, (sort l).Perm l) (f : PyFile) (name : CStr) (dtype : Option CStr)
    (nmemb : Int) (fsize : List Nat) (bb : Block) (rc : Int) (w w1 : World)
    (hc : createBlock env f.basename name dtype nmemb fsize w = .ok (rc, some bb) w1)
    (hnf : w1.faults = noFaults) (ht : TreeOk w1.fs) (hb : f.basename ≠ [])
    (hlen : ∀ cs, Listed w1.fs (resolve f.basename) cs → (joinNames cs).length ≤ 8192) :
    ∃ l f' w', pyFileCreate env sort f name dtype nmemb fsize w = .ok (.ok bb, f') w' ∧ w'.fs = w1.fs ∧ (l.Pairwise fun x y => strcmp x y = .lt) ∧
      (∀ name, name ∈ l ↔ ∃ cs, Listed w'.fs (resolve f.basename) cs ∧ name = joinNames cs) ∧
      f'.basename = f.basename ∧ ∀ w2, pyFileBlocks sort f' w2 = .ok (l, f') w2 := by
  obtain ⟨l, w', e, hfs, hnd, hmem⟩ := pyListBlocks_spec sort hsort f w1 hnf ht hb hlen
  refine ⟨l, { f with blocks := some l }, w', ?_, hfs, hnd, by rw [hfs]; exact hmem, rfl, fun w2 => rfl⟩
  show (M.bind (createBlock env f.basename name dtype nmemb fsize) _) w = _
  simp only [M.bind, hc]
  show (M.bind (pyListBlocks sort f) _) w1 = _
  simp only [M.bind, e]
  rfl

/-- **C97, otherwise the list is not read again**: an object that has been asked for its blocks goes on answering the same, and without
looking at the disk, whatever others do to it. -/
theorem C97_stale_partial (sort : List CStr → List CStr) (f : PyFile) (l : List CStr) (h : f.blocks = some l) (w : World) :
    pyFileBlocks sort f w = .ok (l, f) w ∧ ∀ key, pyFileContains sort f key w = .ok (decide (key ∈ l), f) w := by
  have e : pyFileBlocks sort f w = .ok (l, f) w := by unfold pyFileBlocks; rw [h]; rfl
  refine ⟨e, fun key => ?_⟩
  show (M.bind (pyFileBlocks sort f) _) w = _
  simp only [M.bind, e]
  rfl

/-- **C97, pickling.** If the directory is still there, and without faults, an object made from the state of another has its base name and its
list of blocks. -/
theorem C97_pickle (f : PyFile) (l : List CStr) (w : World) (hnf : w.faults = noFaults) (hb : f.basename ≠ [])
    (hlen : f.basename.length ≤ 8192) (hdir : (w.fs.node (resolve f.basename)).isSome = true) :
    ∃ w', pyFileSetstate (l, f.basename) w = .ok { f with blocks := some l } w' ∧ w'.fs = w.fs := by
  have h1 := statOk_plain f.basename w hnf
  rw [hdir, decide_eq_true hb] at h1
  refine ⟨{ w with clock := w.clock + 1 }, ?_, rfl⟩
  have : strdup f.basename = f.basename := List.take_of_length_le hlen
  show (M.bind (M.bind (statOk f.basename) _) _) w = _
  simp only [M.bind, h1, Bool.and_self, if_true, this]
  rfl

/-- The state that is pickled is the base name and the list of blocks. -/
theorem C97_state (sort : List CStr → List CStr) (f : PyFile) (w w' : World) (l : List CStr) (f' : PyFile)
    (h : pyFileBlocks sort f w = .ok (l, f') w') : pyFileGetstate sort f w = .ok ((l, f'.basename), f') w' := by
  show (M.bind (pyFileBlocks sort f) _) w = _
  simp only [M.bind, h]
  rfl

/-- **C97, pickling, when the directory is gone** (or `stat` fails): there is no exception. The object that results lists the blocks of the
state, but opening `name` opens the block `name` of the working directory. -/
theorem C97_pickle_lost_partial (env : Env) (base : CStr) (l : List CStr) (w : World) (hnf : w.faults = noFaults)
    (hgone : w.fs.node (resolve base) = none) :
    ∃ g w', pyFileSetstate (l, base) w = .ok g w' ∧ w'.fs = w.fs ∧ g.blocks = some l ∧
      ∀ name, openBlock env g.basename name = blockOpen env name := by
  have h1 := statOk_plain base w hnf
  rw [hgone] at h1
  refine ⟨⟨[], some l⟩, { w with clock := w.clock + 1 }, ?_, rfl, rfl, fun name => rfl⟩
  show (M.bind (M.bind (statOk base) _) _) w = _
  simp only [M.bind, h1, Option.isSome_none, Bool.and_false]
  rfl

/-! ## Examples -/

-- the file `d` has the blocks `x` and `g/y`, and the file `d['//g/']` the block `y`
example : ∃ l w1 g w2 l' w3, pyListBlocks id ⟨b!"d", none⟩ exTreeWorld = .ok l w1 ∧ w1.fs = exTreeWorld.fs ∧
    pySubfile ⟨b!"d", none⟩ b!"//g/" exTreeWorld = .ok (.ok g) w2 ∧ w2.fs = exTreeWorld.fs ∧
    pyListBlocks id g w2 = .ok l' w3 ∧ w3.fs = exTreeWorld.fs ∧ (l'.Pairwise fun x y => strcmp x y = .lt) ∧
    ∀ b, b ∈ l' ↔ joinNames [b!"g"] ++ '/'.toUInt8 :: b ∈ l :=
  C96_blocks id (fun l => List.Perm.refl l) ⟨b!"d", none⟩ b!"//g/" [b!"g"] exTreeWorld rfl exTree_ok (by decide) (by decide) (by decide)
    (by decide) (fun cs h => exTree_short _ cs h) (by decide)
    (by
      intro j h1 h2
      obtain rfl : j = 1 := by simp only [List.length_cons, List.length_nil] at h2; omega
      unfold HasHeader
      decide) (by decide)

example : (pyListBlocks id ⟨b!"d", none⟩ exTreeWorld).val? = some [b!"g/y", b!"x"] := by decide +kernel
example : (pySubfile ⟨b!"d", none⟩ b!"//g/" exTreeWorld).val?.map Except.toOption = some (some ⟨b!"d/g/", none⟩) := by decide +kernel
example : (pyListBlocks id ⟨b!"d/g/", none⟩ exTreeWorld).val? = some [b!"y"] := by decide +kernel
-- with MPI there is no such file
example : (pySubfileMpi ⟨b!"d", none⟩ b!"/g/" exTreeWorld).val?.map Except.toOption = some none := by decide +kernel

example : ∃ l f' w', pyFileBlocks id ⟨b!"d", none⟩ exTreeWorld = .ok (l, f') w' ∧ w'.fs = exTreeWorld.fs ∧
    (l.Pairwise fun x y => strcmp x y = .lt) ∧
    (∀ name, name ∈ l ↔ ∃ cs, Listed exTreeWorld.fs (resolve b!"d") cs ∧ name = joinNames cs) ∧
    (∀ key, pyFileContains id ⟨b!"d", none⟩ key exTreeWorld = .ok (decide (key ∈ l), f') w') ∧
    f'.basename = b!"d" ∧ ∀ w2, pyFileBlocks id f' w2 = .ok (l, f') w2 :=
  C97_first id (fun l => List.Perm.refl l) ⟨b!"d", none⟩ exTreeWorld rfl rfl exTree_ok (by decide) (fun cs h => exTree_short _ cs h)

/-- A block is created through one object after another was asked for its blocks. -/
def exStale : M (Bool × Bool × Bool) := do
  let g ← pyFileContains id ⟨b!"d", none⟩ b!"new"
  let r ← pyFileCreate exEnv id ⟨b!"d", none⟩ b!"new" (some b!"<i4") 1 [2]
  let here ← pyFileContains id r.2 b!"new"
  let there ← pyFileContains id g.2 b!"new"
  let fresh ← pyFileContains id ⟨b!"d", none⟩ b!"new"
  pure (here.1, there.1, fresh.1)

/-- **C97, the list of an object can be out of date**: a block created through another object is on the disk but not in the list. -/
theorem C97_stale_example : (exStale exTreeWorld).val? = some (true, false, true) := by decide +kernel

/-- The file `no` is pickled, and is gone; the block `d/x` of the working directory is opened in its place. -/
theorem C97_pickle_lost_example : ∃ g w', pyFileSetstate ([b!"d/x"], b!"no") exTreeWorld = .ok g w' ∧ w'.fs = exTreeWorld.fs ∧
    g.blocks = some [b!"d/x"] ∧ ∀ name, openBlock exEnv g.basename name = blockOpen exEnv name :=
  C97_pickle_lost_partial exEnv b!"no" [b!"d/x"] exTreeWorld rfl (by decide)

end Verif
