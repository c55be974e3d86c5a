import Verif.Proof.List
import Verif.Proof.TreeOnly
import Verif.Props.Disk
/-!
# C35 to C38, C59: directories, listing, which files belong to whom
-/

set_option autoImplicit false

namespace Verif

open Spec

/-! ## C35 -/

theorem prefix_dir_of {fs : FS} (ht : TreeOk fs) {p k : Key} (hs : (fs.node p).isSome = true) (hk : k <+: p)
    (hne : k ≠ p) : fs.node k = some .dir := by
  obtain ⟨t, rfl⟩ := hk
  exact ht.prefix_dir k t hs (by rintro rfl; simp at hne)

/-- **C35, files** (partial: for paths of at most 8192 characters; longer ones are cut). If `big_file_create`
returned 0, every directory on the way to `path` is there, and something is there under `path` itself: a
directory, unless a regular file of that name existed before. Nothing else happened to the tree than that
directories on this way were made. -/
theorem C35_file_partial (path : CStr) (w w' : World) (bf : CStr) (ht : TreeOk w.fs) (hne : path ≠ [])
    (hlen : path.length ≤ 8192) (h : bigFileCreate path w = .ok (0, bf) w') :
    (∀ k, k <+: resolve path → k ≠ resolve path → w'.fs.node k = some .dir) ∧
    (w'.fs.node (resolve path)).isSome = true ∧
    (¬ IsFile w.fs (resolve path) → w'.fs.node (resolve path) = some .dir) ∧
    (∀ k, w'.fs.node k ≠ w.fs.node k → k <+: resolve path ∧ w.fs.node k = none ∧ w'.fs.node k = some .dir) := by
  have hres : baseKey [] path ++ names path = resolve path := by
    rw [resolve_names]; rfl
  have key : wpc (bigFileCreate path) w (fun r w' => MadeDirs [] path w w' ∧
      (r.1 = 0 → (w'.fs.node (resolve path)).isSome = true)) (fun _ => True) := by
    unfold bigFileCreate
    rw [wpc_bind]
    refine wpc_mono (mksubdirR_spec [] path w hlen (Or.inl hne)) ?_ (fun _ _ => trivial)
    rintro rc w1 ⟨h1, h2, h3, _⟩
    rw [wpc_pure]
    refine ⟨h1, fun h => ?_⟩
    rw [hres] at h3
    rcases h2 with rfl | rfl
    · exact h3 rfl
    · simp at h
  obtain ⟨hm, hs⟩ := wpc_ok key h
  have hs := hs rfl
  refine ⟨fun k hk hne => prefix_dir_of (hm.tree ht) hs hk hne, hs, ?_, ?_⟩
  · intro hnf
    rcases hm.only (resolve path) with h1 | ⟨_, h1⟩
    · cases hn : w.fs.node (resolve path) with
      | none => rw [h1, hn] at hs; simp at hs
      | some n =>
        cases n with
        | dir => rw [h1, hn]
        | file d => exact absurd ⟨d, hn⟩ hnf
    · exact h1
  · intro k hk
    obtain ⟨t, ht, rfl⟩ := hm.where_ k hk
    refine ⟨?_, ?_⟩
    · obtain ⟨u, hu⟩ := ht
      exact ⟨u, by rw [List.append_assoc, hu, hres]⟩
    · rcases hm.only (baseKey [] path ++ t) with h1 | h1
      · exact absurd h1 hk
      · exact h1

/-- **C35, files succeed.** Without faults `big_file_create` does return 0 and makes all the directories, as
long as no regular file stands in the way. -/
theorem C35_file_succeeds_partial (path : CStr) (w : World) (hnf : w.faults = noFaults) (ht : TreeOk w.fs)
    (hne : path ≠ []) (hlen : path.length ≤ 8192) (hway : ∀ k, k <+: resolve path → ¬ IsFile w.fs k) :
    ∃ bf w', bigFileCreate path w = .ok (0, bf) w' ∧ ∀ k, k <+: resolve path → w'.fs.node k = some .dir := by
  have hres : baseKey [] path ++ names path = resolve path := by
    rw [resolve_names]; rfl
  have hclear : ClearWay w.fs [] path := by
    refine ⟨?_, ?_⟩
    · unfold baseKey
      simp only [if_true]
      split
      · exact ht.root
      · exact ht.cwd
    · intro t d hp hn
      refine hway (baseKey [] path ++ t) ?_ ⟨d, hn⟩
      obtain ⟨u, hu⟩ := hp
      exact ⟨u, by rw [List.append_assoc, hu, hres]⟩
  have key : wpc (bigFileCreate path) w (fun r w' => MadeDirs [] path w w' ∧
      r.1 = 0 ∧ w'.fs.node (resolve path) = some .dir) (fun _ => False) := by
    unfold bigFileCreate
    rw [wpc_bind]
    refine wpc_mono (mksubdirR_spec [] path w hlen (Or.inl hne)) ?_ (fun _ h => h.1 hnf)
    rintro rc w1 ⟨h1, _, _, h4⟩
    rw [wpc_pure]
    obtain ⟨rfl, h5⟩ := h4 hnf hclear
    rw [hres] at h5
    exact ⟨h1, rfl, h5⟩
  obtain ⟨r, w1, e1, h1, h2, h3⟩ := wpc_returns key (fun _ h => h)
  obtain ⟨rc, bf⟩ := r
  dsimp only at h2
  subst h2
  refine ⟨bf, w1, e1, fun k hk => ?_⟩
  by_cases he : k = resolve path
  · rw [he, h3]
  · exact prefix_dir_of (h1.tree ht) (by rw [h3]; rfl) hk he

/-- **C35, longer paths** are cut without an error: making a file of such a name makes the one whose name is the first 8192 characters, and
the handle is of that one. -/
theorem C35_cut (path : CStr) : bigFileCreate path = bigFileCreate (path.take 8192) := by
  have h : strdup (path.take 8192) = strdup path := by
    unfold strdup
    rw [List.take_take, Nat.min_self]
  unfold bigFileCreate mksubdirR
  rw [h]

/-- What `big_file_create_block` does to the tree, whatever happens to it. -/
theorem createBlock_out (env : Env) (bf name : CStr) (dt : Option CStr) (nmemb : Int) (fsize : List Nat)
    (w : World) (ht : TreeOk w.fs) (hbf : bf ≠ []) (hlen : (pathJoin bf name).length ≤ 8192) :
    wlp (createBlock env bf name dt nmemb fsize) w
      (fun r w' => Later w.fs w'.fs ∧
        (∀ k, w'.fs.node k ≠ w.fs.node k → (∃ id, k = fileKey (pathJoin bf name) id) ∨
          ∃ t, t <+: names name ∧ k = resolve bf ++ t) ∧
        (r.1 = 0 → IsFile w'.fs (fileKey (pathJoin bf name) .attrV2) ∧
          (isMeta (pathJoin bf name) = false → IsFile w'.fs (fileKey (pathJoin bf name) .header))))
      (fun w' => Later w.fs w'.fs ∧
        ∀ k, w'.fs.node k ≠ w.fs.node k → (∃ id, k = fileKey (pathJoin bf name) id) ∨
          ∃ t, t <+: names name ∧ k = resolve bf ++ t) := by
  have hl2 : name.length ≤ 8192 := by
    unfold pathJoin at hlen
    split at hlen
    · exact hlen
    · split at hlen
      · simp at hlen; omega
      · simp at hlen; omega
  have hbk : baseKey bf name = resolve bf := by unfold baseKey; rw [if_neg hbf]
  unfold createBlock
  rw [wlp_bind]
  refine wlp_mono (wlp_of_wpc (mksubdirR_spec bf name w hl2 (Or.inr hbf))) ?_ ?_
  rotate_left
  · rintro w1 ⟨_, h1, h2, h3⟩
    refine ⟨⟨h2 ht, fun k => ?_⟩, fun k hk => Or.inr ?_⟩
    · rcases h1 k with h | ⟨h, h'⟩
      · rw [h]; unfold IsFile; rw [h]; exact ⟨id, id⟩
      · unfold IsFile; rw [h]; simp
    · have := h3 k hk
      rwa [hbk] at this
  rintro rc w1 ⟨h1, h2, h3, _⟩
  have hl1 : Later w.fs w1.fs := by
    refine ⟨h1.tree ht, fun k => ?_⟩
    rcases h1.only k with h | ⟨h, h'⟩
    · rw [h]; unfold IsFile; rw [h]; exact ⟨id, id⟩
    · unfold IsFile; rw [h]; simp
  have hw1 : ∀ k, w1.fs.node k ≠ w.fs.node k → ∃ t, t <+: names name ∧ k = resolve bf ++ t := by
    intro k hk
    have := h1.where_ k hk
    rwa [hbk] at this
  split
  · rename_i hrc
    exact ⟨hl1, fun k hk => Or.inr (hw1 k hk), by simp⟩
  · refine wlp_mono (blockCreate_files env (pathJoin bf name) dt nmemb fsize w1 hl1.1) ?_ ?_
    rotate_left
    · rintro w2 ⟨k1, k2⟩
      have hstr : strdup (pathJoin bf name) = pathJoin bf name := List.take_of_length_le hlen
      rw [hstr] at k2
      refine ⟨hl1.trans k1, fun k hk => ?_⟩
      by_cases hx : ∃ id, k = fileKey (pathJoin bf name) id
      · exact Or.inl hx
      · right
        apply hw1
        rw [← k2 k (fun id h => hx ⟨id, h⟩)]
        exact hk
    rintro r w2 ⟨k1, k2, k3⟩
    have hstr : strdup (pathJoin bf name) = pathJoin bf name := List.take_of_length_le hlen
    rw [hstr] at k2 k3
    refine ⟨hl1.trans k1, ?_, k3⟩
    intro k hk
    by_cases hx : ∃ id, k = fileKey (pathJoin bf name) id
    · exact Or.inl hx
    · right
      apply hw1
      rw [← k2 k (fun id h => hx ⟨id, h⟩)]
      exact hk

/-- **C35, blocks** (partial: for paths of at most 8192 characters). If `big_file_create_block` returned 0,
the directory of the block and all directories on the way to it are there; nothing was removed, and besides
directories on that way only the files of the block have changed. This holds also if reported or silent
faults occurred. -/
theorem C35_block_partial (env : Env) (bf name : CStr) (dt : Option CStr) (nmemb : Int) (fsize : List Nat)
    (w w' : World) (o : Option Block) (ht : TreeOk w.fs) (hbf : bf ≠ []) (hlen : (pathJoin bf name).length ≤ 8192)
    (h : createBlock env bf name dt nmemb fsize w = .ok (0, o) w') :
    (∀ k, k <+: resolve bf ++ names name → w'.fs.node k = some .dir) ∧ NothingLost w.fs w'.fs ∧
    (∀ k, w'.fs.node k ≠ w.fs.node k → (∃ id, k = fileKey (pathJoin bf name) id) ∨
      ∃ t, t <+: names name ∧ k = resolve bf ++ t) := by
  obtain ⟨h1, h2, h3⟩ := wlp_ok (createBlock_out env bf name dt nmemb fsize w ht hbf hlen) h
  obtain ⟨d, hd⟩ := (h3 rfl).1
  refine ⟨?_, h1.2, h2⟩
  intro k hk
  refine prefix_dir_of h1.1 (p := fileKey (pathJoin bf name) .attrV2) (by rw [hd]; rfl) ?_ ?_
  · rw [fileKey_eq, resolve_join bf name hbf]
    exact hk.trans (List.prefix_append _ _)
  · intro he
    rw [he, fileKey_eq, resolve_join bf name hbf] at hk
    have := hk.length_le
    simp only [List.length_append, List.length_cons, List.length_nil] at this
    omega

/-! ## C36 -/

/-- **C36.** Without faults `big_file_list` returns exactly the names of the directories below the file root
that hold a header, are not inside another block and have no component starting with a dot; no name comes
twice; nothing on disk changes. `sort` is any reordering of directory entries. (Names longer than 8192
characters — no path that long can be opened — would be cut.) -/
theorem C36_list (sort : List CStr → List CStr) (hsort : ∀ l, (sort l).Perm l) (bf : CStr) (w : World)
    (hnf : w.faults = noFaults) (ht : TreeOk w.fs) (hbf : bf ≠ [])
    (hlen : ∀ cs, Listed w.fs (resolve bf) cs → (joinNames cs).length ≤ 8192) :
    ∃ l w', bigFileList sort bf w = .ok l w' ∧ w'.fs = w.fs ∧ l.Nodup ∧
      ∀ name, name ∈ l ↔ ∃ cs, Listed w.fs (resolve bf) cs ∧ name = joinNames cs := by
  have hd1 : 1 ≤ w.fs.depth := by unfold FS.depth; omega
  have key : wpc (bigFileList sort bf) w (fun l w' => w'.fs = w.fs ∧ l.Nodup ∧
      ∀ name, name ∈ l ↔ ∃ cs, Listed w.fs (resolve bf) cs ∧ name = joinNames cs) (fun _ => False) := by
    unfold bigFileList
    rw [wpc_bind, wpc_getFS, wpc_bind]
    refine wpc_mono (listR_spec sort hsort bf hbf w.fs ht w.fs.depth [] [] w rfl hnf (by simp) hd1 (by omega)) ?_
      (fun _ h => h)
    rintro l w1 ⟨h1, _, L, rfl, hnd, hL⟩
    rw [wpc_pure]
    simp only [List.append_nil] at hL ⊢
    have hmem : ∀ ds, ds ∈ L ↔ Listed w.fs (resolve bf) ds := by
      intro ds
      rw [hL]
      constructor
      · rintro ⟨t, rfl, h⟩; exact h
      · intro h; exact ⟨ds, rfl, h⟩
    have hmap : (L.map joinNames).map strdup = L.map joinNames := by
      rw [List.map_map]
      apply List.map_congr_left
      intro ds hds
      exact List.take_of_length_le (hlen ds ((hmem ds).mp hds))
    rw [hmap]
    refine ⟨h1, ?_, ?_⟩
    · unfold List.Nodup at hnd ⊢
      rw [List.pairwise_map]
      refine hnd.imp_of_mem ?_
      intro a b ha hb hab he
      exact hab (joinNames_inj ((hmem a).mp ha).names ((hmem b).mp hb).names he)
    · intro name
      rw [List.mem_map]
      constructor
      · rintro ⟨ds, hds, rfl⟩; exact ⟨ds, (hmem ds).mp hds, rfl⟩
      · rintro ⟨ds, hds, rfl⟩; exact ⟨ds, (hmem ds).mpr hds, rfl⟩
  obtain ⟨l, w', e, h⟩ := wpc_returns key (fun _ h => h)
  exact ⟨l, w', e, h⟩

/-! ## C37 -/

theorem pathJoin_last (a e : CStr) : ∃ p, pathJoin a e = p ++ e ∧ (a ≠ [] → ∃ q, p = q ++ [47]) ∧
    (p = [] ∨ ∃ q, p = q ++ [47]) := by
  unfold pathJoin
  split
  · rename_i h
    exact ⟨[], rfl, fun hc => absurd (List.length_eq_zero_iff.mp h) hc, Or.inl rfl⟩
  · split
    · rename_i h
      obtain ⟨q, rfl⟩ := getLast_slash a h
      exact ⟨q ++ [47], rfl, fun _ => ⟨q, rfl⟩, Or.inr ⟨q, rfl⟩⟩
    · exact ⟨a ++ [47], by simp, fun _ => ⟨a, rfl⟩, Or.inr ⟨a, rfl⟩⟩

theorem isMeta_name (q c : CStr) (h : IsName c) : isMeta (q ++ 47 :: c) = false := by
  have hdot : (q ++ 47 :: c == b!".") = false := by
    rw [beq_eq_false_iff_ne]
    intro he
    cases q with
    | nil => simp at he
    | cons x q =>
      have := congrArg List.length he
      simp at this
  unfold isMeta
  rw [hdot, Bool.or_false]
  unfold endswith
  obtain ⟨c', x, rfl⟩ : ∃ c' x, c = c' ++ [x] := by
    rcases List.eq_nil_or_concat c with h' | ⟨c', x, h'⟩
    · exact absurd h' h.1
    · exact ⟨c', x, by simpa using h'⟩
  rcases List.eq_nil_or_concat c' with rfl | ⟨c'', y, h'⟩
  · have : x ≠ 46 := by rintro rfl; exact h.2 rfl
    simp [this]
  · have h' : c' = c'' ++ [y] := by simpa using h'
    subst h'
    have : y ≠ 47 := by rintro rfl; exact h.3 (by simp)
    simp [this]

theorem isMeta_names (bf : CStr) (cs : List CStr) (hbf : bf ≠ []) (hne : cs ≠ []) (hcs : ∀ c ∈ cs, IsName c) :
    isMeta (pathJoin bf (joinNames cs)) = false := by
  obtain ⟨cs', c, rfl⟩ : ∃ cs' c, cs = cs' ++ [c] := by
    rcases List.eq_nil_or_concat cs with h' | ⟨c', x, h'⟩
    · exact absurd h' hne
    · exact ⟨c', x, by simpa using h'⟩
  rw [← joinNames_snoc cs' c (fun x hx => hcs x (List.mem_append_left _ hx))]
  obtain ⟨p, hp, _, hp2⟩ := pathJoin_last (joinNames cs') c
  rw [hp]
  obtain ⟨p2, h2, h3, _⟩ := pathJoin_last bf (p ++ c)
  rw [h2]
  obtain ⟨q, rfl⟩ := h3 hbf
  have hc := hcs c (by simp)
  rcases hp2 with rfl | ⟨q2, rfl⟩
  · have := isMeta_name q c hc
    simpa using this
  · have := isMeta_name (q ++ 47 :: q2) c hc
    simpa using this

/-- **C37** (partial: for names without `.`-components, doubled slashes and names starting with a dot, for
blocks that are not created inside another block, and for names that do not run through a directory called
`header`). If `big_file_create_block` returned 0 — whatever faults there were — the name is listed from then
on. -/
theorem C37_created_is_listed_partial (env : Env) (sort : List CStr → List CStr) (hsort : ∀ l, (sort l).Perm l)
    (bf : CStr) (cs : List CStr) (dt : Option CStr) (nmemb : Int) (fsize : List Nat) (w w' : World)
    (o : Option Block) (ht : TreeOk w.fs) (hbf : bf ≠ []) (hlen : (pathJoin bf (joinNames cs)).length ≤ 8192)
    (hne : cs ≠ []) (hcs : ∀ c ∈ cs, IsName c) (hdot : ∀ c ∈ cs, c.head? ≠ some 46)
    (hout : ∀ j, 0 < j → j < cs.length → ¬ HasHeader w.fs (resolve bf ++ cs.take j))
    (hhead : ∀ j, 0 < j → cs[j]? ≠ some b!"header")
    (h : createBlock env bf (joinNames cs) dt nmemb fsize w = .ok (0, o) w')
    (hlen' : ∀ cs, Listed w'.fs (resolve bf) cs → (joinNames cs).length ≤ 8192) :
    ∃ l w'', bigFileList sort bf { w' with faults := noFaults } = .ok l w'' ∧ joinNames cs ∈ l := by
  have hnames : names (joinNames cs) = cs := names_joinNames cs hcs
  obtain ⟨h1, h2, h3⟩ := wlp_ok (createBlock_out env bf (joinNames cs) dt nmemb fsize w ht hbf hlen) h
  have hmeta : isMeta (pathJoin bf (joinNames cs)) = false := isMeta_names bf cs hbf hne hcs
  have hlisted : Listed w'.fs (resolve bf) cs := by
    refine ⟨hne, hcs, hdot, ?_, ?_⟩
    · obtain ⟨d, hd⟩ := (h3 rfl).2 hmeta
      unfold HasHeader
      have : fileKey (pathJoin bf (joinNames cs)) .header = resolve bf ++ cs ++ [b!"header"] := by
        rw [fileKey_eq, resolve_join bf _ hbf, hnames]; rfl
      rw [← this, hd]; rfl
    · intro j hj hjl hh
      apply hout j hj hjl
      unfold HasHeader at hh ⊢
      by_cases he : w'.fs.node (resolve bf ++ cs.take j ++ [b!"header"]) = w.fs.node (resolve bf ++ cs.take j ++ [b!"header"])
      · rw [← he]; exact hh
      · exfalso
        rcases h2 _ he with ⟨id, hk⟩ | ⟨t, htp, hk⟩
        · rw [fileKey_eq, resolve_join bf _ hbf, hnames] at hk
          have := congrArg List.length hk
          simp only [List.length_append, List.length_take, List.length_cons, List.length_nil] at this
          omega
        · rw [hnames] at htp
          rw [List.append_assoc] at hk
          have hk := List.append_cancel_left hk
          apply hhead j hj
          obtain ⟨u, hu⟩ := htp
          have htl : t.length = j + 1 := by
            rw [← hk]; simp only [List.length_append, List.length_take, List.length_cons, List.length_nil]; omega
          have htj : t[j]? = some b!"header" := by
            rw [← hk, List.getElem?_append_right (by simp only [List.length_take]; omega)]
            simp [Nat.min_eq_left (Nat.le_of_lt hjl)]
          rw [← hu, List.getElem?_append_left (by omega), htj]
  obtain ⟨l, w'', e, _, _, hmem⟩ := C36_list sort hsort bf { w' with faults := noFaults } rfl h1.1 hbf hlen'
  exact ⟨l, w'', e, (hmem _).mpr ⟨cs, hlisted, rfl⟩⟩

/-! ## C38 -/

/-- **C38.** A physical file belongs to one block directory and has one role in it: header, attributes (old
or new format) or data file number `i`. -/
theorem C38_files_distinct (base base' : CStr) (id id' : FileId) (h : fileKey base id = fileKey base' id') :
    resolve base = resolve base' ∧ id = id' := by
  rw [fileKey_eq, fileKey_eq] at h
  have h1 := congrArg List.dropLast h
  have h2 := congrArg List.getLast? h
  simp only [List.dropLast_concat, List.getLast?_concat, Option.some.injEq] at h1 h2
  exact ⟨h1, FileId.name_inj h2⟩

/-! ## C59 -/

theorem scandir_keeps (sort : List CStr → List CStr) (path : CStr) : KeepsTree (scandir sort path) := by
  intro w ht
  unfold scandir
  rw [wlp_bind]
  show wlp _ ({ w with clock := w.clock + 1 } : World) _ _
  split
  · exact Later.refl ht
  · exact Later.refl ht
  · exact KeepsTree.bind getFS_keeps (fun _ => KeepsTree.ite (KeepsTree.pure _) (KeepsTree.pure _))
      ({ w with clock := w.clock + 1 } : World) ht

theorem listEntries_keeps (visit : CStr → List CStr → M (List CStr)) (hv : ∀ n l, KeepsTree (visit n l)) (name : CStr) :
    ∀ (es l : List CStr), KeepsTree (listEntries visit name es l) := by
  intro es
  induction es with
  | nil => intro l; exact KeepsTree.pure _
  | cons e es ih => intro l; exact KeepsTree.bind (hv _ _) fun l => ih l

theorem listR_keeps (sort : List CStr → List CStr) (base : CStr) :
    ∀ (fuel : Nat) (n : CStr) (l : List CStr), KeepsTree (listR sort base fuel n l) := by
  intro fuel
  induction fuel with
  | zero => intro n l; exact KeepsTree.hang
  | succ fuel ih =>
    intro n l
    unfold listR
    refine KeepsTree.bind (scandir_keeps _ _) fun o => ?_
    split
    · exact KeepsTree.pure _
    · refine listEntries_keeps _ (fun n l => ?_) _ _ _
      exact KeepsTree.bind (fopen_keeps (filePath _ .header) .r) fun b => KeepsTree.ite (KeepsTree.pure _) (ih _ _)

/-- A call to the library, with arbitrary arguments. -/
inductive ApiCall where
  | createFile (path : CStr)
  | openFile (path : CStr)
  | list (sort : List CStr → List CStr) (bf : CStr)
  | createBlock (env : Env) (bf name : CStr) (dt : Option CStr) (nmemb : Int) (fsize : List Nat)
  | openBlock (env : Env) (bf name : CStr)
  | write (env : Env) (bb : Block) (ptr : Ptr) (a : Arr) (mem : Mem)
  | read (env : Env) (bb : Block) (ptr : Ptr) (a : Arr) (mem : Mem)
  | grow (bb : Block) (sizes : List Nat)
  | flush (env : Env) (bb : Block)
  | close (env : Env) (bb : Block)

/-- What the call does to the world; its result is dropped. -/
def ApiCall.run : ApiCall → M Unit
  | .createFile p => do let _ ← bigFileCreate p
  | .openFile p => do let _ ← bigFileOpen p
  | .list sort bf => do let _ ← bigFileList sort bf
  | .createBlock env bf name dt nmemb fsize => do let _ ← Verif.createBlock env bf name dt nmemb fsize
  | .openBlock env bf name => do let _ ← Verif.openBlock env bf name
  | .write env bb ptr a mem => do let _ ← blockWrite env bb ptr a mem
  | .read env bb ptr a mem => do let _ ← blockRead env bb ptr a mem
  | .grow bb sizes => do let _ ← blockGrow bb sizes
  | .flush env bb => do let _ ← blockFlush env bb
  | .close env bb => do let _ ← blockClose env bb

/-- One call after the other. -/
def runCalls : List ApiCall → M Unit
  | [] => pure ()
  | c :: cs => do c.run; runCalls cs

/-- The directory of the handle a call works on. -/
def ApiCall.handle : ApiCall → Option CStr
  | .write _ bb _ _ _ => some bb.basename
  | .read _ bb _ _ _ => some bb.basename
  | .grow bb _ => some bb.basename
  | .flush _ bb => some bb.basename
  | .close _ bb => some bb.basename
  | _ => none

theorem statOk_keeps (path : CStr) : KeepsTree (statOk path) := by
  intro w ht
  unfold statOk
  rw [wlp_bind]
  show wlp _ ({ w with clock := w.clock + 1 } : World) _ _
  split <;> exact Later.refl ht

theorem ApiCall.keeps (c : ApiCall) : KeepsTree c.run := by
  cases c with
  | createFile p => exact KeepsTree.bind (bigFileCreate_keeps _) fun _ => KeepsTree.pure _
  | openFile p =>
    refine KeepsTree.bind ?_ fun _ => KeepsTree.pure _
    unfold bigFileOpen
    exact KeepsTree.bind (statOk_keeps _) fun _ => KeepsTree.ite (KeepsTree.pure _) (KeepsTree.pure _)
  | list sort bf =>
    refine KeepsTree.bind ?_ fun _ => KeepsTree.pure _
    unfold bigFileList
    exact KeepsTree.bind getFS_keeps fun _ => KeepsTree.bind (listR_keeps _ _ _ _ _) fun _ => KeepsTree.pure _
  | createBlock env bf name dt nmemb fsize => exact KeepsTree.bind (createBlock_keeps _ _ _ _ _ _) fun _ => KeepsTree.pure _
  | openBlock env bf name => exact KeepsTree.bind (blockOpen_keeps _ _) fun _ => KeepsTree.pure _
  | write env bb ptr a mem => exact KeepsTree.bind (blockWrite_keeps _ _ _ _ _ _) fun _ => KeepsTree.pure _
  | read env bb ptr a mem => exact KeepsTree.bind (blockRead_keeps _ _ _ _ _ _) fun _ => KeepsTree.pure _
  | grow bb sizes => exact KeepsTree.bind (blockGrow_keeps _ _) fun _ => KeepsTree.pure _
  | flush env bb => exact KeepsTree.bind (blockFlush_keeps _ _) fun _ => KeepsTree.pure _
  | close env bb => exact KeepsTree.bind (blockClose_keeps _ _) fun _ => KeepsTree.pure _

theorem wlp_reached {α : Type} {m : M α} {w w' : World} {P : World → Prop}
    (h : wlp m w (fun _ w' => P w') P) (hr : (∃ a, m w = .ok a w') ∨ m w = .crash w') : P w' := by
  unfold wlp at h
  rcases hr with ⟨a, hr⟩ | hr <;> rw [hr] at h <;> exact h

theorem ApiCall.touches (c : ApiCall) (base : CStr) (hb : c.handle = some base) : Touches base c.run := by
  cases c <;> simp only [ApiCall.handle, Option.some.injEq, reduceCtorEq] at hb <;> subst hb
  · exact Touches.bind (blockWrite_touches _ _ _ _ _ _) fun _ => Touches.pure _
  · exact Touches.bind (blockRead_touches _ _ _ _ _ _) fun _ => Touches.pure _
  · exact Touches.bind (blockGrow_touches _ _) fun _ => Touches.pure _
  · exact Touches.bind (blockFlush_touches _ _) fun _ => Touches.pure _
  · exact Touches.bind (blockClose_touches _ _) fun _ => Touches.pure _

/-- **C38, calls.** A call on the handle of one block — with any arguments and any faults, returning or killed
— leaves every file of every block in another directory as it was. -/
theorem C38_other_blocks (c : ApiCall) (base base' : CStr) (hb : c.handle = some base)
    (hd : resolve base' ≠ resolve base) (w w' : World) (hr : (∃ a, c.run w = .ok a w') ∨ c.run w = .crash w')
    (id : FileId) : w'.fs.node (fileKey base' id) = w.fs.node (fileKey base' id) := by
  have h := wlp_reached (c.touches base hb w) hr
  exact h _ fun id' he => hd (C38_files_distinct _ _ _ _ he).1

/-- **C59.** No sequence of calls, with any arguments and any faults, ever removes a file or a directory or
turns one into the other — whether it returns or is killed on the way. -/
theorem C59_nothing_lost (calls : List ApiCall) (w w' : World) (ht : TreeOk w.fs)
    (hr : (∃ a, runCalls calls w = .ok a w') ∨ runCalls calls w = .crash w') :
    NothingLost w.fs w'.fs ∧ TreeOk w'.fs := by
  have : KeepsTree (runCalls calls) := by
    clear hr
    induction calls with
    | nil => exact KeepsTree.pure _
    | cons c cs ih => exact KeepsTree.bind c.keeps fun _ => ih
  have h := wlp_reached (this w ht) hr
  exact ⟨h.2, h.1⟩

/-! ## Examples -/

/-- A tree: blocks `d/x` and `d/g/y`, a block `d/x/in` inside `d/x`, a hidden one `d/.h`, an empty directory
`d/e` and a regular file `d/f`. -/
def exTree : FS :=
  let ks : List Key := [[], [[]], [b!"d"], [b!"d", b!"x"], [b!"d", b!"g"], [b!"d", b!"g", b!"y"],
    [b!"d", b!"x", b!"in"], [b!"d", b!".h"], [b!"d", b!"e"]]
  let fs : List Key := [[b!"d", b!"x", b!"header"], [b!"d", b!"g", b!"y", b!"header"],
    [b!"d", b!"x", b!"in", b!"header"], [b!"d", b!".h", b!"header"], [b!"d", b!"f"]]
  { node := fun k => if k ∈ ks then some .dir else if k ∈ fs then some (.file [1]) else none
    dom := ks ++ fs }

def exTreeWorld : World := ⟨exTree, noFaults, 0⟩

theorem exTree_mem {k : Key} (h : (exTree.node k).isSome = true) : k ∈ exTree.dom := by
  unfold exTree at h ⊢
  dsimp only at h ⊢
  rw [List.mem_append]
  split at h
  · exact Or.inl ‹_›
  · split at h
    · exact Or.inr ‹_›
    · simp at h

theorem exTree_ok : TreeOk exTree := by
  refine ⟨by decide, by decide, ?_, ?_, fun k h => exTree_mem h, by decide⟩
  · intro k h hne
    have h := exTree_mem h
    have : ∀ k ∈ exTree.dom, k ≠ [] → exTree.node k.dropLast = some .dir := by decide
    exact this k h hne
  · intro k h
    have h := exTree_mem h
    by_cases h2 : k = [[]]
    · subst h2; exact Or.inr ⟨[], rfl, by simp⟩
    · left
      intro c hc
      have : ∀ k ∈ exTree.dom, k ≠ [[]] → ∀ c ∈ k, c ≠ [] ∧ c ≠ b!"." ∧ (47 : Byte) ∉ c := by decide
      obtain ⟨h3, h4, h5⟩ := this k h h2 c hc
      exact ⟨h3, h4, h5⟩

example : (bigFileCreate b!"a//b/./c/" exTreeWorld).val?.map (·.1) = some 0 := by decide +kernel
example : ((bigFileCreate b!"a//b/./c/" exTreeWorld).fs?.map fun fs => fs.node [b!"a", b!"b", b!"c"]) =
    some (some .dir) := by decide +kernel

theorem exTree_way (p : Key) (h : ∀ k ∈ exTree.dom, k <+: p → exTree.node k = some .dir) :
    ∀ k, k <+: p → ¬ IsFile exTree k := by
  intro k hk ⟨d, hd⟩
  have := h k (exTree_mem (by rw [hd]; rfl)) hk
  rw [hd] at this
  simp at this

example : ∃ bf w', bigFileCreate b!"d//g/./z/u/" exTreeWorld = .ok (0, bf) w' ∧
    ∀ k, k <+: resolve b!"d//g/./z/u/" → w'.fs.node k = some .dir :=
  C35_file_succeeds_partial _ exTreeWorld rfl exTree_ok (by decide) (by decide) (exTree_way _ (by decide))

/-- A regular file in place of the last directory goes unnoticed; one on the way is an error. -/
theorem C35_regular_file :
    (bigFileCreate b!"d/f" exTreeWorld).val?.map (·.1) = some 0 ∧
    (bigFileCreate b!"d/f/z" exTreeWorld).val?.map (·.1) = some (-1) := by decide +kernel

/-- Only the blocks that C36 describes are found. -/
example : (bigFileList id b!"d" exTreeWorld).val? = some [b!"g/y", b!"x"] := by decide +kernel

/-- With a fault a block is missing from the list, and nothing is reported. -/
theorem C36_needs_no_faults :
    (bigFileList id b!"d" { exTreeWorld with faults := fun n => if n = 1 then .fail else .none }).val? =
      some [b!"g/y", b!"x/in"] := by decide +kernel

/-- Create a block, then list the file. -/
def createList (bf name : CStr) : M (Int × List CStr) := do
  let r ← createBlock exEnv bf name (some b!"i4") 1 [2]
  let l ← bigFileList id bf
  pure (r.1, l)

/-- **C37 is false** in general: a block created inside another one, one with a name starting with a dot and
one with a name that is not in normal form are created and not listed under that name; creating `e/header`
turns `e` into a block in the eyes of the listing. -/
theorem C37_not_listed :
    (createList b!"d" b!"x/new" exTreeWorld).val? = some (0, [b!"g/y", b!"x"]) ∧
    (createList b!"d" b!".new" exTreeWorld).val? = some (0, [b!"g/y", b!"x"]) ∧
    (createList b!"d" b!"g//new/" exTreeWorld).val? = some (0, [b!"g/y", b!"g/new", b!"x"]) ∧
    (createList b!"d" b!"e/header" exTreeWorld).val? = some (0, [b!"e", b!"g/y", b!"x"]) := by decide +kernel

example : (createList b!"d" b!"e/new" exTreeWorld).val? = some (0, [b!"e/new", b!"g/y", b!"x"]) := by decide +kernel


theorem exTree_short (r : Key) (cs : List CStr) (h : Listed exTree r cs) : (joinNames cs).length ≤ 8192 := by
  have hm := exTree_mem h.header
  have hall : ∀ k ∈ exTree.dom, (k.flatMap fun c => c ++ [47]).length ≤ 8192 := by decide
  have h1 := hall _ hm
  have h2 : ∀ cs : List CStr, (joinNames cs).length ≤ (cs.flatMap fun c => c ++ [47]).length := by
    intro cs
    induction cs with
    | nil => simp [joinNames]
    | cons c cs ih =>
      cases cs with
      | nil => simp [joinNames]
      | cons d cs =>
        simp only [joinNames, List.length_append, List.length_cons, List.flatMap_cons] at ih ⊢
        simp only [List.length_nil] at ih ⊢
        omega
  have h3 := h2 cs
  simp only [List.flatMap_append, List.length_append] at h1
  omega

example : ∃ l w', bigFileList id b!"d" exTreeWorld = .ok l w' ∧ w'.fs = exTreeWorld.fs ∧ l.Nodup ∧
    ∀ name, name ∈ l ↔ ∃ cs, Listed exTreeWorld.fs (resolve b!"d") cs ∧ name = joinNames cs :=
  C36_list id (fun l => List.Perm.refl l) b!"d" exTreeWorld rfl exTree_ok (by decide) (fun cs h => exTree_short _ cs h)

-- the hypotheses of C37 for the block `e/new`
example : (∀ j, 0 < j → j < [b!"e", b!"new"].length → ¬ HasHeader exTree (resolve b!"d" ++ [b!"e", b!"new"].take j)) ∧
    (∀ j, 0 < j → [b!"e", b!"new"][j]? ≠ some b!"header") := by
  refine ⟨?_, ?_⟩
  · intro j h1 h2
    obtain rfl : j = 1 := by simp only [List.length_cons, List.length_nil] at h2; omega
    unfold HasHeader
    decide
  · intro j h1
    rcases j with _ | _ | j
    · omega
    · decide
    · simp

/-- A history that is killed while it writes a header. -/
def exHist : Res Unit := runCalls [.createFile b!"q", .createBlock exEnv b!"q" b!"z" (some b!"i4") 1 [2],
  .list id b!"d"] { exTreeWorld with faults := fun n => if n = 3 then .crash 3 else .none }

example : exHist.crashed = true ∧ exHist.fs?.map (fun fs => (fs.node [b!"d", b!"f"],
    fs.node [b!"q", b!"z", b!"header"])) = some (some (.file [1]), some (.file b!"DTY")) := by decide +kernel

end Verif
