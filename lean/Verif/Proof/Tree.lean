import Verif.Spec.Tree
import Verif.Proof.Create
/-!
# Directory trees
-/

set_option autoImplicit false

namespace Verif

open Spec

theorem splitSlash_mem (s : CStr) : ∀ c ∈ splitSlash s, (47 : Byte) ∉ c := by
  fun_induction splitSlash s with
  | case1 => simp
  | case2 s ih =>
    intro c hc
    rcases List.mem_cons.mp hc with rfl | hc
    · simp
    · exact ih c hc
  | case3 a s h x xs heq ih =>
    rw [heq] at ih
    intro c hc
    rcases List.mem_cons.mp hc with rfl | hc
    · have := ih x (by simp)
      simp only [List.mem_cons, not_or]
      exact ⟨fun h' => h h'.symm, this⟩
    · exact ih c (List.mem_cons_of_mem _ hc)
  | case4 a s h heq ih => exact absurd heq (splitSlash_ne_nil s)

theorem names_isName (p : CStr) : ∀ c ∈ names p, IsName c := by
  intro c hc
  unfold names at hc
  rw [List.mem_filter] at hc
  have h1 := splitSlash_mem p c hc.1
  simp only [Bool.not_eq_true', Bool.or_eq_false_iff, List.isEmpty_eq_false_iff, beq_eq_false_iff_ne] at hc
  exact ⟨hc.2.1, hc.2.2, h1⟩

theorem names_append (a b : CStr) : names (a ++ 47 :: b) = names a ++ names b := by
  unfold names
  rw [splitSlash_append, List.filter_append]

theorem names_nil : names [] = [] := rfl

theorem names_slash (a : CStr) : names (a ++ [47]) = names a := by
  rw [names_append, names_nil, List.append_nil]

theorem names_isName_one (c : CStr) (h : IsName c) : names c = [c] := by
  unfold names
  rw [splitSlash_noSlash c h.slash]
  have := h.ne
  have := h.dot
  simp_all

theorem names_noSlash (c : CStr) (h : (47 : Byte) ∉ c) : names c = [] ∨ (names c = [c] ∧ IsName c) := by
  by_cases h1 : c = []
  · subst h1; exact Or.inl rfl
  · by_cases h2 : c = b!"."
    · subst h2; exact Or.inl (by decide)
    · exact Or.inr ⟨names_isName_one c ⟨h1, h2, h⟩, ⟨h1, h2, h⟩⟩

theorem resolve_names (p : CStr) : resolve p = (if isAbs p = true then [[]] else []) ++ names p := by
  rw [resolve_eq]
  unfold names
  split <;> rfl

theorem isAbs_append (a b : CStr) (h : a ≠ []) : isAbs (a ++ b) = isAbs a := by
  cases a with
  | nil => exact absurd rfl h
  | cons c a => rfl

theorem getLast_slash (base : CStr) (h : base.getLast? = some 47) : ∃ b', base = b' ++ [47] := by
  have hne : base ≠ [] := by rintro rfl; simp at h
  refine ⟨base.dropLast, ?_⟩
  have h1 := List.dropLast_concat_getLast hne
  have h2 : base.getLast hne = 47 := by
    have h3 := List.getLast?_eq_some_getLast hne
    rw [h] at h3
    simpa using h3.symm
  rw [h2] at h1
  exact h1.symm

/-- Joining to a non-empty base appends the names. -/
theorem resolve_join (base name : CStr) (hb : base ≠ []) :
    resolve (pathJoin base name) = resolve base ++ names name := by
  unfold pathJoin
  rw [if_neg (by simpa using hb)]
  split
  · rename_i hl
    obtain ⟨b', rfl⟩ := getLast_slash base hl
    rw [resolve_names, resolve_names (b' ++ [47]), isAbs_append _ _ hb, List.append_assoc b',
      List.singleton_append, names_append, names_slash, List.append_assoc]
  · rw [resolve_names, resolve_names base, isAbs_append _ _ hb, names_append, List.append_assoc]

/-- The directory below which the names of `sub` are taken. -/
def baseKey (base sub : CStr) : Key :=
  if base = [] then (if isAbs sub = true then [[]] else []) else resolve base

theorem resolve_sub (base sub d r : CStr) (h : d ++ r = sub) (hd : d ≠ [] ∨ base ≠ []) :
    resolve (pathJoin base d) = baseKey base sub ++ names d := by
  unfold baseKey
  by_cases hb : base = []
  · subst hb
    have hd' : d ≠ [] := by
      rcases hd with hd | hd
      · exact hd
      · exact absurd rfl hd
    simp only [if_true]
    unfold pathJoin
    rw [if_pos (by rfl), resolve_names, ← h, isAbs_append _ _ hd']
  · rw [if_neg hb]
    exact resolve_join base d hb

theorem isKey_resolve (p : CStr) : IsKey (resolve p) := by
  rw [resolve_names]
  split
  · exact Or.inr ⟨_, rfl, names_isName p⟩
  · exact Or.inl (names_isName p)

theorem isKey_append {k : Key} {cs : List CStr} (h : IsKey k) (hc : ∀ c ∈ cs, IsName c) : IsKey (k ++ cs) := by
  rcases h with h | ⟨t, rfl, h⟩
  · left
    intro c hm
    rcases List.mem_append.mp hm with h1 | h1
    · exact h c h1
    · exact hc c h1
  · right
    refine ⟨t ++ cs, rfl, ?_⟩
    intro c hm
    rcases List.mem_append.mp hm with h1 | h1
    · exact h c h1
    · exact hc c h1

/-! ## Joined names -/

theorem joinNames_ne (cs : List CStr) (h : ∀ c ∈ cs, IsName c) (hne : cs ≠ []) : joinNames cs ≠ [] := by
  match cs with
  | [] => exact absurd rfl hne
  | [c] => exact (h c (by simp)).ne
  | c :: d :: cs => simp [joinNames]

theorem names_joinNames (cs : List CStr) (h : ∀ c ∈ cs, IsName c) : names (joinNames cs) = cs := by
  induction cs with
  | nil => rfl
  | cons c cs ih =>
    cases cs with
    | nil => exact names_isName_one c (h c (by simp))
    | cons d cs =>
      rw [joinNames, names_append, names_isName_one c (h c (by simp)), ih (fun x hx => h x (by simp_all))]
      rfl

theorem joinNames_inj {a b : List CStr} (ha : ∀ c ∈ a, IsName c) (hb : ∀ c ∈ b, IsName c)
    (h : joinNames a = joinNames b) : a = b := by
  rw [← names_joinNames a ha, ← names_joinNames b hb, h]

theorem joinNames_noTrail (cs : List CStr) (h : ∀ c ∈ cs, IsName c) : (joinNames cs).getLast? ≠ some 47 := by
  induction cs with
  | nil => simp [joinNames]
  | cons c cs ih =>
    cases cs with
    | nil =>
      intro hc
      exact (h c (by simp)).slash (List.mem_of_getLast? hc)
    | cons d cs =>
      have hd : ∀ x ∈ d :: cs, IsName x := fun x hx => h x (List.mem_cons_of_mem _ hx)
      have hne := joinNames_ne (d :: cs) hd (by simp)
      rw [joinNames, List.getLast?_append]
      have : (47 :: joinNames (d :: cs)).getLast? = (joinNames (d :: cs)).getLast? := by
        cases hj : joinNames (d :: cs) with
        | nil => exact absurd hj hne
        | cons x y => rfl
      rw [this]
      have := ih hd
      cases hg : (joinNames (d :: cs)).getLast? with
      | none => simp at hg; exact absurd hg hne
      | some v => rw [hg] at this; simpa using this

theorem joinNames_snoc (cs : List CStr) (e : CStr) (h : ∀ c ∈ cs, IsName c) :
    pathJoin (joinNames cs) e = joinNames (cs ++ [e]) := by
  induction cs with
  | nil => rfl
  | cons c cs ih =>
    unfold pathJoin
    have hne := joinNames_ne (c :: cs) h (by simp)
    rw [if_neg (by simpa using hne), if_neg (joinNames_noTrail _ h)]
    cases cs with
    | nil => rfl
    | cons d cs =>
      have hd : ∀ x ∈ d :: cs, IsName x := fun x hx => h x (List.mem_cons_of_mem _ hx)
      have := ih hd
      unfold pathJoin at this
      have hne' := joinNames_ne (d :: cs) hd (by simp)
      rw [if_neg (by simpa using hne'), if_neg (joinNames_noTrail _ hd)] at this
      rw [joinNames, List.append_assoc, List.cons_append, this]
      rfl

/-! ## Trees -/

theorem Spec.TreeOk.prefix_dir {fs : FS} (h : TreeOk fs) (k t : Key) (hs : (fs.node (k ++ t)).isSome = true)
    (ht : t ≠ []) : fs.node k = some .dir := by
  induction hn : t.length generalizing t with
  | zero => exact absurd (List.eq_nil_of_length_eq_zero hn) ht
  | succ n ih =>
    have hp := h.parent _ hs (by simp [ht])
    rw [List.dropLast_append_of_ne_nil ht] at hp
    by_cases htd : t.dropLast = []
    · rw [htd, List.append_nil] at hp; exact hp
    · exact ih t.dropLast (by rw [hp]; rfl) htd (by rw [List.length_dropLast]; omega)

theorem Spec.TreeOk.set {fs : FS} (h : TreeOk fs) (k : Key) (n : Node) (hk : IsKey k) (hne : k ≠ [])
    (hp : fs.node k.dropLast = some .dir) (hd : n = .dir ∨ fs.node k ≠ some .dir) : TreeOk (fs.set k n) := by
  have hroot : n ≠ .dir → k ≠ [[]] := by
    rintro hn rfl
    rcases hd with hd | hd
    · exact hn hd
    · exact hd h.root
  have hdir : ∀ k', fs.node k' = some .dir → (fs.set k n).node k' = some .dir := by
    intro k' h'
    by_cases he : k' = k
    · subst he
      rw [FS.set_node]
      rcases hd with rfl | hd
      · rfl
      · exact absurd h' hd
    · rw [FS.set_other _ _ _ _ he]; exact h'
  refine ⟨hdir _ h.cwd, hdir _ h.root, ?_, ?_, ?_, ?_⟩
  · intro k' hs hk'
    apply hdir
    by_cases he : k' = k
    · subst he; exact hp
    · rw [FS.set_other _ _ _ _ he] at hs
      exact h.parent k' hs hk'
  · intro k' hs
    by_cases he : k' = k
    · subst he; exact hk
    · rw [FS.set_other _ _ _ _ he] at hs
      exact h.keys k' hs
  · intro k' hs
    have : k' = k ∨ k' ∈ fs.dom := by
      by_cases he : k' = k
      · exact Or.inl he
      · rw [FS.set_other _ _ _ _ he] at hs
        exact Or.inr (h.dom k' hs)
    unfold FS.set
    dsimp only
    split
    · rename_i hm
      rcases this with rfl | h1
      · exact hm
      · exact h1
    · simpa using this
  · unfold FS.set
    dsimp only
    split
    · exact h.nodup
    · rename_i hm
      exact List.nodup_cons.mpr ⟨hm, h.nodup⟩

theorem Spec.TreeOk.entries {fs : FS} (h : TreeOk fs) (k : Key) (c : CStr) :
    c ∈ fs.entries k ↔ c ≠ [] ∧ (fs.node (k ++ [c])).isSome = true := by
  unfold FS.entries
  rw [List.mem_filterMap]
  constructor
  · rintro ⟨k', hk', he⟩
    split at he
    · rename_i hc
      rw [Bool.and_eq_true, decide_eq_true_eq] at hc
      rw [Option.filter_eq_some_iff] at he
      obtain ⟨h1, h2⟩ := he
      have : k' = k ++ [c] := by
        rw [← hc.2]
        have hne : k' ≠ [] := by rintro rfl; simp at h1
        rw [List.getLast?_eq_some_getLast hne] at h1
        injection h1 with h1
        rw [← h1]
        exact (List.dropLast_concat_getLast hne).symm
      rw [← this]
      exact ⟨by simpa using h2, hc.1⟩
    · simp at he
  · rintro ⟨h1, h2⟩
    refine ⟨k ++ [c], h.dom _ h2, ?_⟩
    rw [if_pos (by simp [h2])]
    simp [h1, Option.filter]

theorem Spec.TreeOk.entries_nodup {fs : FS} (h : TreeOk fs) (k : Key) : (fs.entries k).Nodup := by
  unfold FS.entries
  have key : ∀ l : List Key, l.Nodup → (l.filterMap fun k' =>
    if (fs.node k').isSome && decide (k'.dropLast = k) then k'.getLast?.filter (fun c => !c.isEmpty)
    else none).Nodup := by
    intro l hl
    induction l with
    | nil => simp
    | cons k' l ih =>
      rw [List.nodup_cons] at hl
      rw [List.filterMap_cons]
      split
      · exact ih hl.2
      · rename_i c hc
        refine List.nodup_cons.mpr ⟨?_, ih hl.2⟩
        intro hm
        rw [List.mem_filterMap] at hm
        obtain ⟨k2, hk2, he⟩ := hm
        have hform : ∀ q, (if (fs.node q).isSome && decide (q.dropLast = k) then
            q.getLast?.filter (fun c => !c.isEmpty) else none) = some c → q = k ++ [c] := by
          intro q hq
          split at hq
          · rename_i hcc
            rw [Bool.and_eq_true, decide_eq_true_eq] at hcc
            rw [Option.filter_eq_some_iff] at hq
            have hne : q ≠ [] := by rintro rfl; simp at hq
            have h1 := hq.1
            rw [List.getLast?_eq_some_getLast hne] at h1
            injection h1 with h1
            rw [← hcc.2, ← h1]
            exact (List.dropLast_concat_getLast hne).symm
          · simp at hq
        apply hl.1
        rw [hform k' hc, ← hform k2 he]
        exact hk2
  exact key _ h.nodup

/-! ## Making directories -/

theorem endsInDot_comp (x tail : CStr) (ht : IsName tail) (hx : x = [] ∨ ∃ y, x = y ++ [47]) :
    endsInDot (x ++ tail) = false := by
  have hs : ∃ l, splitSlash (x ++ tail) = l ++ [tail] := by
    rcases hx with rfl | ⟨y, rfl⟩
    · exact ⟨[], by rw [List.nil_append, splitSlash_noSlash _ ht.slash]; rfl⟩
    · refine ⟨splitSlash y, ?_⟩
      rw [List.append_assoc, List.singleton_append, splitSlash_append, splitSlash_noSlash _ ht.slash]
  obtain ⟨l, hl⟩ := hs
  unfold endsInDot
  rw [hl, List.filter_append]
  have h1 := ht.ne
  have h2 := ht.dot
  have : [tail].filter (fun c => !c.isEmpty) = [tail] := by simp [h1]
  rw [this, List.getLast?_concat]
  simp only [beq_eq_false_iff_ne]
  exact h2

/-- A string split into what was passed up to the last slash, and the name being read. -/
structure SplitAt (done pre tail : CStr) : Prop where
  eq : done = pre ++ tail
  slash : (47 : Byte) ∉ tail
  ends : pre = [] ∨ ∃ y, pre = y ++ [47]

theorem SplitAt.names {done pre tail : CStr} (h : SplitAt done pre tail) :
    names done = names pre ++ names tail := by
  rcases h.ends with h1 | ⟨y, h1⟩
  · rw [h.eq, h1]; rfl
  · rw [h.eq, h1, List.append_assoc, List.singleton_append, names_append, names_slash]

theorem SplitAt.slashStep {done pre tail : CStr} (h : SplitAt done pre tail) :
    SplitAt (done ++ [47]) (done ++ [47]) [] :=
  ⟨by simp, by simp, Or.inr ⟨done, rfl⟩⟩

theorem SplitAt.charStep {done pre tail : CStr} {c : Byte} (h : SplitAt done pre tail) (hc : c ≠ 47) :
    SplitAt (done ++ [c]) pre (tail ++ [c]) := by
  refine ⟨by rw [h.eq, List.append_assoc], ?_, h.ends⟩
  simp only [List.mem_append, List.mem_singleton, not_or]
  exact ⟨h.slash, fun h' => hc h'.symm⟩

theorem endsInDot_join (base done pre tail : CStr) (h : SplitAt done pre tail) (ht : IsName tail) :
    endsInDot (pathJoin base done) = false := by
  unfold pathJoin
  rw [h.eq]
  split
  · exact endsInDot_comp pre tail ht h.ends
  · split
    · rename_i hl
      rw [← List.append_assoc]
      apply endsInDot_comp _ _ ht
      right
      rcases h.ends with rfl | ⟨y, rfl⟩
      · obtain ⟨b', hb'⟩ := getLast_slash base hl
        exact ⟨b', by rw [List.append_nil]; exact hb'⟩
      · exact ⟨base ++ y, by simp⟩
    · rw [show base ++ 47 :: (pre ++ tail) = (base ++ 47 :: pre) ++ tail by simp]
      apply endsInDot_comp _ _ ht
      right
      rcases h.ends with rfl | ⟨y, rfl⟩
      · exact ⟨base, rfl⟩
      · exact ⟨base ++ 47 :: y, by simp⟩

theorem pathJoin_eq_nil (base d : CStr) : pathJoin base d = [] ↔ base = [] ∧ d = [] := by
  unfold pathJoin
  split
  · rename_i h
    have := List.eq_nil_of_length_eq_zero h
    simp [this]
  · rename_i h
    have hb : base ≠ [] := by rintro rfl; exact h rfl
    split <;> simp [hb]

/-- `mkdir` keeps the tree a tree. -/
theorem mkdirOk_tree {path : CStr} {w : World} (ht : TreeOk w.fs) :
    wpc (mkdirOk path) w (fun _ w' => TreeOk w'.fs) (fun w' => TreeOk w'.fs) := by
  unfold mkdirOk
  rw [wpc_bind, wpc_tick]
  have hrest : wpc (do
      let fs ← getFS
      let k := resolve path
      if path = [] then pure false
      else match fs.node k with
      | some _ => pure true
      | none =>
        if endsInDot path then pure false
        else if fs.node k.dropLast = some .dir then do
          setFS (fs.set k .dir)
          pure true
        else pure false) ({ w with clock := w.clock + 1 } : World)
      (fun _ w' => TreeOk w'.fs) (fun w' => TreeOk w'.fs) := by
    rw [wpc_bind, wpc_getFS]
    dsimp only
    split
    · exact ht
    · split
      · exact ht
      · rename_i hn
        split
        · exact ht
        · split
          · rename_i hp
            rw [wpc_bind, wpc_setFS, wpc_pure]
            refine ht.set _ _ (isKey_resolve path) ?_ hp (Or.inl rfl)
            intro hc
            rw [hc, ht.cwd] at hn
            simp at hn
          · exact ht
  cases hf : w.faults w.clock with
  | crash n => exact ht
  | fail => exact ht
  | none => exact hrest
  | short n => exact hrest
  | silent n => exact hrest

/-- Nothing but directories stands in the way of the names of `sub`. -/
def ClearWay (fs : FS) (base sub : CStr) : Prop :=
  fs.node (baseKey base sub) = some .dir ∧
  ∀ t d, t <+: names sub → fs.node (baseKey base sub ++ t) ≠ some (.file d)

theorem Spec.OnlyNewDirs.clear {a b : FS} (h : OnlyNewDirs a b) {base sub : CStr} (hc : ClearWay a base sub) :
    ClearWay b base sub := by
  refine ⟨by rw [h.some (by rw [hc.1]; rfl)]; exact hc.1, ?_⟩
  intro t d ht hn
  rcases h (baseKey base sub ++ t) with h1 | ⟨_, h1⟩
  · rw [h1] at hn; exact hc.2 t d ht hn
  · rw [h1] at hn; simp at hn

theorem mkdir_step (base sub done pre tail : CStr) (rest : CStr) (hsub : done ++ rest = sub)
    (hsp : SplitAt done pre tail) (hne : done ≠ [] ∨ base ≠ []) (w : World) :
    wpc (mkdirOk (pathJoin base done)) w
      (fun b w' => w'.faults = w.faults ∧ OnlyNewDirs w.fs w'.fs ∧ (TreeOk w.fs → TreeOk w'.fs) ∧
        (∀ k, w'.fs.node k ≠ w.fs.node k → k = baseKey base sub ++ names done) ∧
        (b = true → (w'.fs.node (baseKey base sub ++ names done)).isSome = true) ∧
        (w.faults = noFaults → ClearWay w.fs base sub → names done <+: names sub →
          w.fs.node (baseKey base sub ++ names pre) = some .dir →
          b = true ∧ w'.fs.node (baseKey base sub ++ names done) = some .dir))
      (fun w' => w.faults ≠ noFaults ∧ w'.fs = w.fs) := by
  have hres := resolve_sub base sub done rest hsub hne
  have hpne : pathJoin base done ≠ [] := by
    intro hc
    rw [pathJoin_eq_nil] at hc
    rcases hne with h | h
    · exact h hc.2
    · exact h hc.1
  by_cases htree : TreeOk w.fs
  · refine wpc_mono (wpc_and wpc_mkdirOk (mkdirOk_tree htree)) ?_ (fun _ h => h.1)
    rintro b w' ⟨⟨h1, h2, h3, h4, h5⟩, h6⟩
    rw [hres] at h3 h4 h5
    refine ⟨h1, h2, fun _ => h6, ?_, h4, ?_⟩
    · intro k hk
      by_cases he : k = baseKey base sub ++ names done
      · exact he
      · exact absurd (h3 k he) hk
    · intro hnf hclear hpre hdir
      have hb : b = true := by
        apply h5 hnf hpne
        by_cases hs : (w.fs.node (baseKey base sub ++ names done)).isSome = true
        · exact Or.inl hs
        · right
          rcases names_noSlash tail hsp.slash with h0 | ⟨h0, hn⟩
          · exfalso
            apply hs
            rw [hsp.names, h0, List.append_nil, hdir]; rfl
          · refine ⟨endsInDot_join base done pre tail hsp hn, ?_⟩
            rw [hsp.names, h0, ← List.append_assoc, List.dropLast_concat]
            exact hdir
      refine ⟨hb, ?_⟩
      have h7 := h4 hb
      cases hn : w'.fs.node (baseKey base sub ++ names done) with
      | none => rw [hn] at h7; simp at h7
      | some n =>
        cases n with
        | dir => rfl
        | file d => exact absurd hn ((h2.clear hclear).2 _ d hpre)
  · refine wpc_mono wpc_mkdirOk ?_ (fun _ h => h)
    rintro b w' ⟨h1, h2, h3, h4, h5⟩
    rw [hres] at h3 h4 h5
    refine ⟨h1, h2, fun h => absurd h htree, ?_, h4, ?_⟩
    · intro k hk
      by_cases he : k = baseKey base sub ++ names done
      · exact he
      · exact absurd (h3 k he) hk
    · intro hnf hclear hpre hdir
      have hb : b = true := by
        apply h5 hnf hpne
        by_cases hs : (w.fs.node (baseKey base sub ++ names done)).isSome = true
        · exact Or.inl hs
        · right
          rcases names_noSlash tail hsp.slash with h0 | ⟨h0, hn⟩
          · exfalso
            apply hs
            rw [hsp.names, h0, List.append_nil, hdir]; rfl
          · refine ⟨endsInDot_join base done pre tail hsp hn, ?_⟩
            rw [hsp.names, h0, ← List.append_assoc, List.dropLast_concat]
            exact hdir
      refine ⟨hb, ?_⟩
      have h7 := h4 hb
      cases hn : w'.fs.node (baseKey base sub ++ names done) with
      | none => rw [hn] at h7; simp at h7
      | some n =>
        cases n with
        | dir => rfl
        | file d => exact absurd hn ((h2.clear hclear).2 _ d hpre)

/-- What making the directories of `sub` does to the tree. -/
structure MadeDirs (base sub : CStr) (w w' : World) : Prop where
  faults : w'.faults = w.faults
  only : OnlyNewDirs w.fs w'.fs
  tree : TreeOk w.fs → TreeOk w'.fs
  where_ : ∀ k, w'.fs.node k ≠ w.fs.node k → ∃ t, t <+: names sub ∧ k = baseKey base sub ++ t

theorem MadeDirs.refl (base sub : CStr) (w : World) : MadeDirs base sub w w :=
  ⟨rfl, OnlyNewDirs.refl _, id, fun _ h => absurd rfl h⟩

theorem MadeDirs.trans {base sub : CStr} {w1 w2 w3 : World} (h : MadeDirs base sub w1 w2)
    (h' : MadeDirs base sub w2 w3) : MadeDirs base sub w1 w3 := by
  refine ⟨h'.1.trans h.1, h.2.trans h'.2, fun x => h'.3 (h.3 x), ?_⟩
  intro k hk
  by_cases he : w3.fs.node k = w2.fs.node k
  · exact h.4 k (by rw [← he]; exact hk)
  · exact h'.4 k he

theorem names_prefix (done rest : CStr) : names done <+: names (done ++ 47 :: rest) :=
  ⟨names rest, (names_append done rest).symm⟩

theorem mksubdirLoop_spec (base sub : CStr) : ∀ (todo done pre tail : CStr) (w : World),
    done ++ todo = sub → SplitAt done pre tail →
    wpc (mksubdirLoop base done todo) w
      (fun b w' => MadeDirs base sub w w' ∧
        (w.faults = noFaults → ClearWay w.fs base sub →
          w.fs.node (baseKey base sub ++ names pre) = some .dir →
          b = true ∧ ∃ pre' tail', SplitAt sub pre' tail' ∧
            w'.fs.node (baseKey base sub ++ names pre') = some .dir))
      (fun w' => w.faults ≠ noFaults ∧ OnlyNewDirs w.fs w'.fs ∧ (TreeOk w.fs → TreeOk w'.fs) ∧
        ∀ k, w'.fs.node k ≠ w.fs.node k → ∃ t, t <+: names sub ∧ k = baseKey base sub ++ t) := by
  intro todo
  induction todo with
  | nil =>
    intro done pre tail w hs hsp
    rw [List.append_nil] at hs
    subst hs
    exact ⟨MadeDirs.refl _ _ _, fun _ _ h => ⟨rfl, pre, tail, hsp, h⟩⟩
  | cons c rest ih =>
    intro done pre tail w hs hsp
    unfold mksubdirLoop
    by_cases hc : c = 47
    · subst hc
      rw [if_pos rfl]
      dsimp only
      by_cases hne : done ≠ [] ∨ base ≠ []
      · have hl : (pathJoin base done).length ≠ 0 := by
          intro hc
          have := List.eq_nil_of_length_eq_zero hc
          rw [pathJoin_eq_nil] at this
          rcases hne with h | h
          · exact h this.2
          · exact h this.1
        rw [if_pos hl, wpc_bind]
        refine wpc_mono (mkdir_step base sub done pre tail _ hs hsp hne w) ?_ ?_
        · rintro b w1 ⟨h1, h2, h3, h4, h5, h6⟩
          have hmd : MadeDirs base sub w w1 := ⟨h1, h2, h3, fun k hk =>
            ⟨_, by rw [← hs]; exact names_prefix done rest, h4 k hk⟩⟩
          cases b with
          | false =>
            simp only [Bool.false_eq_true, if_false]
            rw [wpc_pure]
            refine ⟨hmd, fun hnf hcl hd => ?_⟩
            have := (h6 hnf hcl (by rw [← hs]; exact names_prefix done rest) hd).1
            simp at this
          | true =>
            simp only [if_true]
            refine wpc_mono (ih (done ++ [47]) (done ++ [47]) [] w1 (by simpa using hs) hsp.slashStep) ?_ ?_
            · rintro b2 w2 ⟨h7, h8⟩
              refine ⟨hmd.trans h7, fun hnf hcl hd => ?_⟩
              apply h8 (h1.trans hnf) (h2.clear hcl)
              rw [names_slash]
              exact (h6 hnf hcl (by rw [← hs]; exact names_prefix done rest) hd).2
            · rintro w2 ⟨h7, h8, h9, h10⟩
              refine ⟨by rw [← h1]; exact h7, h2.trans h8, fun h => h9 (h3 h), fun k hk => ?_⟩
              by_cases he : w2.fs.node k = w1.fs.node k
              · exact hmd.where_ k (by rw [← he]; exact hk)
              · exact h10 k he
        · rintro w1 ⟨h1, h2⟩
          exact ⟨h1, by rw [h2]; exact OnlyNewDirs.refl _, by rw [h2]; exact id, fun k hk => absurd (by rw [h2]) hk⟩
      · have hd : done = [] := by
          by_cases h : done = []
          · exact h
          · exact absurd (Or.inl h) hne
        have hb : base = [] := by
          by_cases h : base = []
          · exact h
          · exact absurd (Or.inr h) hne
        have hl : ¬ (pathJoin base done).length ≠ 0 := by rw [hd, hb]; simp [pathJoin]
        rw [if_neg hl]
        refine wpc_mono (ih (done ++ [47]) (done ++ [47]) [] w (by simpa using hs) hsp.slashStep) ?_ (fun _ h => h)
        rintro b2 w2 ⟨h7, h8⟩
        refine ⟨h7, fun hnf hcl hd' => ?_⟩
        apply h8 hnf hcl
        rw [names_slash, hd, names_nil, List.append_nil]
        exact hcl.1
    · rw [if_neg hc]
      exact ih (done ++ [c]) pre (tail ++ [c]) w (by simpa using hs) (hsp.charStep hc)

/-- `_big_file_mksubdir_r` as a whole, for paths short enough not to be cut. -/
theorem mksubdirR_spec (base sub : CStr) (w : World) (hlen : sub.length ≤ 8192) (hne : sub ≠ [] ∨ base ≠ []) :
    wpc (mksubdirR base sub) w
      (fun rc w' => MadeDirs base sub w w' ∧ (rc = 0 ∨ rc = -1) ∧
        (rc = 0 → (w'.fs.node (baseKey base sub ++ names sub)).isSome = true) ∧
        (w.faults = noFaults → ClearWay w.fs base sub →
          rc = 0 ∧ w'.fs.node (baseKey base sub ++ names sub) = some .dir))
      (fun w' => w.faults ≠ noFaults ∧ OnlyNewDirs w.fs w'.fs ∧ (TreeOk w.fs → TreeOk w'.fs) ∧
        ∀ k, w'.fs.node k ≠ w.fs.node k → ∃ t, t <+: names sub ∧ k = baseKey base sub ++ t) := by
  unfold mksubdirR
  have hstr : strdup sub = sub := List.take_of_length_le hlen
  rw [hstr]
  dsimp only
  rw [wpc_bind]
  refine wpc_mono (mksubdirLoop_spec base sub sub [] [] [] w rfl ⟨rfl, by simp, Or.inl rfl⟩) ?_ (fun _ h => h)
  rintro b w1 ⟨h1, h2⟩
  cases b with
  | false =>
    simp only [Bool.false_eq_true, if_false]
    rw [wpc_pure]
    refine ⟨h1, Or.inr rfl, by simp, fun hnf hcl => ?_⟩
    have := (h2 hnf hcl (by simpa [names_nil] using hcl.1)).1
    simp at this
  | true =>
    simp only [if_true]
    rw [wpc_bind]
    by_cases hgood : w.faults = noFaults ∧ ClearWay w.fs base sub
    · obtain ⟨hnf, hcl⟩ := hgood
      obtain ⟨_, pre, tail, hsp, hdir⟩ := h2 hnf hcl (by simpa [names_nil] using hcl.1)
      refine wpc_mono (mkdir_step base sub sub pre tail [] (by simp) hsp hne w1) ?_ ?_
      · rintro b w2 ⟨k1, k2, k3, k4, k5, k6⟩
        have hmd : MadeDirs base sub w1 w2 := ⟨k1, k2, k3, fun k hk => ⟨_, List.prefix_rfl, k4 k hk⟩⟩
        obtain ⟨rfl, k7⟩ := k6 (h1.faults.trans hnf) (h1.only.clear hcl) List.prefix_rfl hdir
        simp only [if_true]
        rw [wpc_pure]
        exact ⟨h1.trans hmd, Or.inl rfl, fun _ => k5 rfl, fun _ _ => ⟨rfl, k7⟩⟩
      · rintro w2 ⟨k1, k2⟩
        exact absurd (h1.faults.trans hnf) k1
    · have hsp0 : ∃ pre tail, SplitAt sub pre tail := by
        have : ∀ (todo done pre tail : CStr), SplitAt done pre tail → ∃ p t, SplitAt (done ++ todo) p t := by
          intro todo
          induction todo with
          | nil => intro done pre tail h; exact ⟨pre, tail, by rw [List.append_nil]; exact h⟩
          | cons c rest ih =>
            intro done pre tail h
            rw [show done ++ c :: rest = (done ++ [c]) ++ rest by simp]
            by_cases hc : c = 47
            · subst hc; exact ih _ _ _ h.slashStep
            · exact ih _ _ _ (h.charStep hc)
        exact this sub [] [] [] ⟨rfl, by simp, Or.inl rfl⟩
      obtain ⟨pre, tail, hsp⟩ := hsp0
      refine wpc_mono (mkdir_step base sub sub pre tail [] (by simp) hsp hne w1) ?_ ?_
      · rintro b w2 ⟨k1, k2, k3, k4, k5, k6⟩
        have hmd : MadeDirs base sub w1 w2 := ⟨k1, k2, k3, fun k hk => ⟨_, List.prefix_rfl, k4 k hk⟩⟩
        cases b with
        | true =>
          simp only [if_true]
          rw [wpc_pure]
          exact ⟨h1.trans hmd, Or.inl rfl, fun _ => k5 rfl, fun a b => absurd ⟨a, b⟩ hgood⟩
        | false =>
          simp only [Bool.false_eq_true, if_false]
          rw [wpc_pure]
          exact ⟨h1.trans hmd, Or.inr rfl, by simp, fun a b => absurd ⟨a, b⟩ hgood⟩
      · rintro w2 ⟨k1, k2⟩
        exact ⟨by rw [← h1.faults]; exact k1, by rw [k2]; exact h1.only, by rw [k2]; exact h1.tree, by rw [k2]; exact h1.where_⟩

end Verif
