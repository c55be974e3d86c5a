import Verif.Spec.LsTool
import Verif.Proof.List
import Verif.Proof.Copy
import Verif.Props.Disk
/-!
# `bigfile-ls`: the recursion
-/

set_option autoImplicit false

namespace Verif

open Spec

variable {env : Env}

theorem isMeta_visible {base : CStr} {cs : List CStr} {e : CStr} (hb : base ≠ []) (hcs : ∀ c ∈ cs, IsName c) (he : IsName e)
    (hd : e.head? ≠ some 46) : isMeta (pathJoin base (joinNames (cs ++ [e]))) = false := by
  have hlast : ∀ p : CStr, p ≠ [] → ∃ q : CStr, pathJoin p e = q ++ 47 :: e := by
    intro p hp
    unfold pathJoin
    rw [if_neg (by simpa using hp)]
    split
    · rename_i h
      refine ⟨p.dropLast, ?_⟩
      have := List.dropLast_concat_getLast hp
      rw [List.getLast?_eq_some_getLast hp] at h
      injection h with h
      rw [h] at this
      conv => lhs; rw [← this]
      simp
    · exact ⟨p, rfl⟩
  obtain ⟨q, hq⟩ : ∃ q : CStr, pathJoin base (joinNames (cs ++ [e])) = q ++ 47 :: e := by
    cases cs with
    | nil => exact hlast base hb
    | cons c cs =>
      rw [← joinNames_snoc _ _ hcs]
      have hne : joinNames (c :: cs) ≠ [] := by
        have := (hcs c (by simp)).ne
        cases cs <;> simp [joinNames, this]
      obtain ⟨q, hq⟩ := hlast _ hne
      rw [hq]
      unfold pathJoin
      split
      · exact ⟨q, rfl⟩
      · split
        · exact ⟨base ++ q, by simp⟩
        · exact ⟨base ++ 47 :: q, by simp⟩
  rw [hq]
  unfold isMeta endswith
  have hs := he.slash
  have hne := he.ne
  rw [Bool.or_eq_false_iff]
  constructor
  · cases hr : e.reverse with
    | nil => simp at hr; exact absurd hr hne
    | cons x t =>
      have hx : x ∈ e := by rw [← List.mem_reverse, hr]; simp
      simp only [List.reverse_append, List.reverse_cons, hr, List.append_assoc, List.cons_append, List.nil_append]
      cases t with
      | nil =>
        have he1 : e = [x] := by rw [← List.reverse_reverse e, hr]; rfl
        subst he1
        have : x ≠ 46 := by simpa using hd
        simp [this]
      | cons y t =>
        have hy : y ∈ e := by rw [← List.mem_reverse, hr]; simp
        have : y ≠ 47 := fun h => hs (h ▸ hy)
        simp [this]
  · simp only [beq_eq_false_iff_ne, ne_eq]
    intro h
    have := congrArg List.length h
    simp only [List.length_append, List.length_cons, List.length_nil] at this
    have := List.length_pos_iff.mpr hne
    omega

/-- Opening a readable directory. -/
theorem wpc_openBlock_readable {base : CStr} {w : World} {C : World → Prop} {Q : Int × CStr → World → Prop} {long : Bool} {bf name : CStr}
    (hbase : base = pathJoin bf name)
    (hnf : w.faults = noFaults) (hlen : base.length ≤ 8192) (hmeta : isMeta base = false) (hr : Readable env w.fs base)
    (hsum : long = true → ∀ h, headerOf w.fs base = some h → h.fsize.sum < 9223372036854775808)
    (hQ : ∀ w', w'.fs = w.fs → w'.faults = noFaults → Q (match headerOf w.fs base with
      | none => (-1, [])
      | some h => (0, if long then longLine bf name h else name ++ b!"\n")) w') :
    wpc (lsBlock env long bf name) w Q C := by
  obtain ⟨⟨s1, s2, h1, h2⟩, hub⟩ := hr
  have hs2 : s2.dirty = false := by
    unfold readsV2 at h2
    split at h2
    · obtain ⟨r, _, he⟩ := Option.map_eq_some_iff.mp h2
      injection he with _ he
      rw [← he]
    · injection h2 with h2
      injection h2 with _ h2
      rw [← h2]
  unfold lsBlock openBlock
  rw [wpc_bind, ← hbase]
  apply wpc_mono (wpc_blockOpen_nf hnf hlen hmeta h1 h2 hub) _ (fun _ h => h)
  rintro r w' ⟨k1, k2, (⟨rfl, k3⟩ | ⟨k3, dtype, nmemb, nfile, fsize, fck, k4, rfl⟩)⟩
  · have hn : headerOf w.fs base = none := by
      unfold headerOf
      rcases k3 with k3 | k3
      · rw [k3]; rfl
      · split
        · rw [k3]
        · rfl
    have := hQ w' k1 k2
    rw [hn] at this
    exact this
  · have hn : headerOf w.fs base = some ⟨dtype, nmemb, fsize, fck⟩ := by
      unfold headerOf
      rw [if_pos k3, k4]
    have hq := hQ w' k1 k2
    rw [hn] at hq
    dsimp only at hq ⊢
    have hcl : blockClose env (openedBlock base dtype nmemb nfile fsize fck s2) w' = .ok 0 w' :=
      blockClose_clean rfl hs2
    rw [wpc_bind]
    unfold wpc
    rw [hcl]
    dsimp only
    have hl : (if long then lsLong name (openedBlock base dtype nmemb nfile fsize fck s2) else name ++ b!"\n") =
        if long then longLine bf name ⟨dtype, nmemb, fsize, fck⟩ else name ++ b!"\n" := by
      cases long with
      | false => simp only [Bool.false_eq_true, if_false]
      | true =>
        have hlt := hsum rfl _ hn
        simp only at hlt
        obtain ⟨_, _, _, l1, l2, l3, _, _⟩ := parseHeader_ok k4
        have e1 : (runningSums 0 fsize).getLastD 0 = fsize.sum := runningSums_last _ (by omega)
        have e2 : intStr (i64 ((fsize.sum : Nat) : Int)) = decStr fsize.sum := by
          rw [i64_of_range (by omega) (by omega)]; simp [intStr]
        have e3 : intStr (i32 ((nfile : Nat) : Int)) = decStr fsize.length := by
          rw [i32_of_range (by omega) (by omega), l1]; simp [intStr]
        simp only [if_true]
        unfold lsLong longLine openedBlock
        dsimp only
        rw [e1, e2, e3, ← l2, List.take_length, hbase]
        have e4 : sysvReduce (fck.sum % 4294967296) = folded fck.sum := by
          unfold sysvReduce folded
          simp only [Nat.mod_mod]
        rw [e4]
        rfl
    show Q (0, _) w'
    rw [hl]
    exact hq

theorem wpc_statDir {path : CStr} {w : World} (hnf : w.faults = noFaults) (hp : path ≠ [])
    (hs : (w.fs.node (resolve path)).isSome = true) {Q : Bool → World → Prop} {C : World → Prop}
    (h : ∀ w', w'.fs = w.fs → w'.faults = noFaults → Q (decide (w.fs.node (resolve path) = some .dir)) w') :
    wpc (statDir path) w Q C := by
  unfold statDir
  rw [wpc_bind, wpc_tick, hnf]
  simp only [noFaults]
  rw [wpc_bind, wpc_getFS]
  have h' := h { w with clock := w.clock + 1 } rfl hnf
  dsimp only at h' ⊢
  rw [if_neg hp]
  cases hn : w.fs.node (resolve path) with
  | none => rw [hn] at hs; cases hs
  | some n =>
    rw [hn] at h'
    rw [hnf] at h'
    cases n with
    | dir => exact h'
    | file b => exact h'

theorem lex_append {le : CStr → CStr → Prop} (cs : List CStr) {a b : List CStr} (h : List.Lex le a b) :
    List.Lex le (cs ++ a) (cs ++ b) := by
  induction cs with
  | nil => exact h
  | cons c cs ih => exact List.Lex.cons ih

/-- The loop over entries. -/
theorem lsEntries_spec (fs : FS) (visit : CStr → M CStr) (cs : List CStr) (hcs : ∀ c ∈ cs, IsName c) (le : CStr → CStr → Prop)
    (P : List CStr → Prop) (sh : List CStr → CStr) :
    ∀ (es : List CStr) (out : CStr) (w : World), w.fs = fs → w.faults = noFaults → es.Nodup → es.Pairwise le →
    (∀ e, e ∈ es → ∀ (w : World), w.fs = fs → w.faults = noFaults →
      wpc (visit (joinNames (cs ++ [e]))) w (fun o w' => w'.fs = fs ∧ w'.faults = noFaults ∧
        ∃ L : List (List CStr), o = L.flatMap sh ∧ L.Nodup ∧ L.Pairwise (List.Lex le) ∧
          ∀ ds, ds ∈ L ↔ ∃ t, ds = cs ++ e :: t ∧ P (e :: t)) (fun _ => False)) →
    wpc (lsEntries visit (joinNames cs) es out) w (fun o w' => w'.fs = fs ∧ w'.faults = noFaults ∧
      ∃ L : List (List CStr), o = out ++ L.flatMap sh ∧ L.Nodup ∧ L.Pairwise (List.Lex le) ∧
        ∀ ds, ds ∈ L ↔ ∃ e t, e ∈ es ∧ ds = cs ++ e :: t ∧ P (e :: t))
      (fun _ => False) := by
  intro es
  induction es with
  | nil =>
    intro out w h1 h2 _ _ _
    exact ⟨h1, h2, [], by simp, List.nodup_nil, List.Pairwise.nil, by simp⟩
  | cons e es ih =>
    intro out w h1 h2 hnd hle hv
    unfold lsEntries
    rw [wpc_bind]
    have hname : (if joinNames cs = [] then e else slashed (joinNames cs) e) = joinNames (cs ++ [e]) := by
      cases cs with
      | nil => rfl
      | cons c cs =>
        have hne : joinNames (c :: cs) ≠ [] := by
          have := (hcs c (by simp)).ne
          cases cs <;> simp [joinNames, this]
        rw [if_neg hne]
        have : ∀ (c : CStr) (cs : List CStr), slashed (joinNames (c :: cs)) e = joinNames (c :: cs ++ [e]) := by
          intro c cs
          induction cs generalizing c with
          | nil => simp [slashed, joinNames]
          | cons d cs ih =>
            have := ih d
            simp only [slashed, joinNames, List.cons_append, List.append_assoc] at this ⊢
            rw [this]
        exact this c cs
    rw [hname]
    refine wpc_mono (hv e (by simp) w h1 h2) ?_ (fun _ h => h)
    rintro o1 w1 ⟨h3, h4, L1, rfl, h5, h5', h6⟩
    rw [List.nodup_cons] at hnd
    rw [List.pairwise_cons] at hle
    refine wpc_mono (ih _ w1 h3 h4 hnd.2 hle.2 (fun e' he' => hv e' (List.mem_cons_of_mem _ he'))) ?_ (fun _ h => h)
    rintro o2 w2 ⟨h7, h8, L2, rfl, h9, h9', h10⟩
    refine ⟨h7, h8, L1 ++ L2, by simp, ?_, ?_, ?_⟩
    · rw [List.nodup_append]
      refine ⟨h5, h9, ?_⟩
      intro a ha b hb hab
      subst hab
      obtain ⟨e', t', he', hp', _⟩ := (h10 a).mp hb
      obtain ⟨t, hp, _⟩ := (h6 a).mp ha
      have := List.append_cancel_left (hp.symm.trans hp')
      simp only [List.cons.injEq] at this
      rw [this.1] at hnd
      exact hnd.1 he'
    · rw [List.pairwise_append]
      refine ⟨h5', h9', ?_⟩
      intro a ha b hb
      obtain ⟨e', t', he', rfl, _⟩ := (h10 b).mp hb
      obtain ⟨t, rfl, _⟩ := (h6 a).mp ha
      exact lex_append cs (List.Lex.rel (hle.1 e' he'))
    · intro ds
      rw [List.mem_append, h6, h10]
      constructor
      · rintro (⟨t, h⟩ | ⟨e', t, he', h⟩)
        · exact ⟨e, t, by simp, h⟩
        · exact ⟨e', t, List.mem_cons_of_mem _ he', h⟩
      · rintro ⟨e', t, he', h⟩
        rcases List.mem_cons.mp he' with rfl | he'
        · exact Or.inl ⟨t, h⟩
        · exact Or.inr ⟨e', t, he', h⟩

theorem Spec.Visible.snoc {cs : List CStr} {e : CStr} (hcs : ∀ c ∈ cs, IsName c ∧ c.head? ≠ some 46) (he : IsName e ∧ e.head? ≠ some 46) :
    Visible (cs ++ [e]) := by
  have h : ∀ c ∈ cs ++ [e], IsName c ∧ c.head? ≠ some 46 := by
    intro c hc
    rcases List.mem_append.mp hc with hc | hc
    · exact hcs c hc
    · rw [List.mem_singleton] at hc; rw [hc]; exact he
  exact ⟨by simp, fun c hc => (h c hc).1, fun c hc => (h c hc).2⟩

theorem headerOf_node {fs : FS} (ht : TreeOk fs) {base : CStr} (hb : base ≠ []) {ds : List CStr} (h : IsBlock fs base ds) :
    fs.node (resolve base ++ ds) = some .dir := by
  obtain ⟨h1, h2⟩ := h
  unfold headerOf at h2
  split at h2
  · rename_i h3
    rw [fileKey_eq, resolve_join base _ hb, names_joinNames _ h1.names] at h3
    exact ht.prefix_dir _ _ h3 (by simp)
  · simp at h2

theorem lsR_spec (sort : List CStr → List CStr) (hsort : ∀ l, (sort l).Perm l) (le : CStr → CStr → Prop)
    (hle : ∀ l, (sort l).Pairwise le) (long : Bool) (base : CStr)
    (hb : base ≠ []) (fs : FS) (ht : TreeOk fs) (hr : AllReadable env fs base)
    (hsum : long = true → ∀ ds h, Visible ds → headerOf fs (pathJoin base (joinNames ds)) = some h → h.fsize.sum < 9223372036854775808) :
    ∀ (fuel : Nat) (cs : List CStr) (w : World),
    w.fs = fs → w.faults = noFaults → (∀ c ∈ cs, IsName c ∧ c.head? ≠ some 46) → 1 ≤ fuel →
    (fs.node (resolve base ++ cs)).isSome = true →
    fs.depth ≤ fuel + (resolve base ++ cs).length →
    wpc (lsR env sort long base fuel (joinNames cs)) w
      (fun o w' => w'.fs = fs ∧ w'.faults = noFaults ∧
        ∃ L : List (List CStr), o = L.flatMap (shownBlock long fs base) ∧ L.Nodup ∧ L.Pairwise (List.Lex le) ∧
          ∀ ds, ds ∈ L ↔ ∃ t, t ≠ [] ∧ ds = cs ++ t ∧ IsBlock fs base (cs ++ t))
      (fun _ => False) := by
  intro fuel
  induction fuel with
  | zero => intro cs w _ _ _ h; omega
  | succ fuel ih =>
    intro cs w hfs hnf hcs _ hsome hdep
    have hcs1 : ∀ c ∈ cs, IsName c := fun c hc => (hcs c hc).1
    unfold lsR
    dsimp only
    have hbuf : (if joinNames cs = [] then base else slashed base (joinNames cs)) ≠ [] ∧
        resolve (if joinNames cs = [] then base else slashed base (joinNames cs)) = resolve base ++ cs := by
      split
      · rename_i h0
        have : cs = [] := by
          cases cs with
          | nil => rfl
          | cons c cs =>
            have := (hcs1 c (by simp)).ne
            cases cs <;> simp [joinNames, this] at h0
        subst this
        exact ⟨hb, by simp⟩
      · refine ⟨by simp [slashed], ?_⟩
        unfold slashed
        rw [resolve_names, isAbs_append _ _ hb, names_append, names_joinNames _ hcs1, resolve_names base, List.append_assoc]
    generalize (if joinNames cs = [] then base else slashed base (joinNames cs)) = buf at hbuf
    obtain ⟨hbne, hbres⟩ := hbuf
    rw [wpc_bind]
    apply wpc_statDir hnf hbne (by rw [hbres, hfs]; exact hsome)
    intro w1 h1 h2
    rw [hbres, hfs]
    by_cases hd : fs.node (resolve base ++ cs) = some .dir
    · rw [decide_eq_true hd, if_pos rfl, wpc_bind]
      apply wpc_scandir sort _ w1 h2 hbne
      intro w2 h3 h4
      rw [hbres, h1, hfs, if_pos hd]
      dsimp only
      have hmem : ∀ e, e ∈ sort ((fs.entries (resolve base ++ cs)).filter fun c => c.head? != some 46) ↔
          e ∈ fs.entries (resolve base ++ cs) ∧ e.head? ≠ some 46 := by
        intro e
        rw [(hsort _).mem_iff, List.mem_filter]
        simp
      have hnd : (sort ((fs.entries (resolve base ++ cs)).filter fun c => c.head? != some 46)).Nodup :=
        (hsort _).nodup_iff.mpr ((ht.entries_nodup _).filter _)
      refine wpc_mono (lsEntries_spec fs _ cs hcs1 le (fun t => IsBlock fs base (cs ++ t)) (shownBlock long fs base)
        _ [] w2 (by rw [h3, h1, hfs]) (h4.trans h2) hnd (hle _) ?_) ?_ (fun _ h => h)
      · intro e he w3 h5 h6
        rw [hmem] at he
        have hname := ht.entry_name he.1
        have hse := ((ht.entries _ e).mp he.1).2
        rw [List.append_assoc] at hse
        have hcs' : ∀ c ∈ cs ++ [e], IsName c ∧ c.head? ≠ some 46 := by
          have := Visible.snoc hcs ⟨hname, he.2⟩
          exact fun c hc => ⟨this.names c hc, this.nodots c hc⟩
        have hvis : Visible (cs ++ [e]) := Visible.snoc hcs ⟨hname, he.2⟩
        obtain ⟨hrd, hlen⟩ := hr _ hvis hse
        rw [wpc_bind]
        apply wpc_openBlock_readable rfl h6 hlen (isMeta_visible hb hcs1 hname he.2) (by rw [h5]; exact hrd)
          (by rw [h5]; exact fun hl h => hsum hl _ h hvis)
        intro w4 h7 h8
        rw [wpc_bind]
        have hdl := FS.le_depth fs _ (ht.dom _ hse)
        refine wpc_mono (ih (cs ++ [e]) w4 (h7.trans h5) h8 hcs' ?_ hse ?_) ?_ (fun _ h => h)
        · simp only [List.length_append, List.length_singleton] at hdl hdep
          omega
        · simp only [List.length_append, List.length_singleton] at hdl hdep ⊢
          omega
        · rintro o w5 ⟨h9, h10, L, rfl, h11, h12, h13⟩
          rw [wpc_pure]
          rw [h5]
          refine ⟨h9, h10, (if (headerOf fs (pathJoin base (joinNames (cs ++ [e])))).isSome then [cs ++ [e]] else []) ++ L, ?_, ?_, ?_, ?_⟩
          · rw [List.flatMap_append]
            congr 1
            cases hh : headerOf fs (pathJoin base (joinNames (cs ++ [e]))) with
            | none => simp
            | some h =>
              simp only [Option.isSome_some, if_true, List.flatMap_cons, List.flatMap_nil, List.append_nil]
              unfold shownBlock
              rw [hh]
          · rw [List.nodup_append]
            refine ⟨by split <;> simp, h11, ?_⟩
            intro a ha b hb' hab
            subst hab
            split at ha
            · rw [List.mem_singleton] at ha
              subst ha
              obtain ⟨t, ht0, ht1, _⟩ := (h13 _).mp hb'
              exact ht0 (by simpa using ht1)
            · simp at ha
          · rw [List.pairwise_append]
            refine ⟨by split <;> simp, h12, ?_⟩
            intro a ha b hb'
            split at ha
            · rw [List.mem_singleton] at ha
              subst ha
              obtain ⟨t, ht0, rfl, _⟩ := (h13 _).mp hb'
              conv => lhs; rw [← List.append_nil (cs ++ [e])]
              apply lex_append
              cases t with
              | nil => exact absurd rfl ht0
              | cons a t => exact List.Lex.nil
            · simp at ha
          · intro ds
            rw [List.mem_append, h13]
            constructor
            · rintro (h | ⟨t, h0, rfl, h⟩)
              · split at h
                · rename_i hh
                  rw [List.mem_singleton] at h
                  exact ⟨[], by rw [h], ⟨hvis, hh⟩⟩
                · simp at h
              · exact ⟨t, by simp, by simpa using h⟩
            · rintro ⟨t, rfl, h⟩
              cases t with
              | nil => left; rw [if_pos h.2]; simp
              | cons a t => right; exact ⟨a :: t, by simp, by simp, by simpa using h⟩
      · rintro o w3 ⟨h5, h6, L, rfl, h7, h8, h9⟩
        refine ⟨h5, h6, L, by simp, h7, h8, ?_⟩
        intro ds
        rw [h9]
        constructor
        · rintro ⟨e, t, _, rfl, h⟩
          exact ⟨e :: t, by simp, rfl, h⟩
        · rintro ⟨t, h0, rfl, h⟩
          cases t with
          | nil => exact absurd rfl h0
          | cons e t =>
            refine ⟨e, t, (hmem e).mpr ⟨?_, h.1.nodots e (by simp)⟩, rfl, h⟩
            rw [ht.entries]
            refine ⟨(h.1.names e (by simp)).ne, ?_⟩
            have h10 := headerOf_node ht hb h
            by_cases ht0 : t = []
            · subst ht0
              rw [List.append_assoc, h10]
              rfl
            · have : fs.node (resolve base ++ cs ++ [e]) = some .dir := by
                apply ht.prefix_dir _ t _ ht0
                rw [show resolve base ++ cs ++ [e] ++ t = resolve base ++ (cs ++ e :: t) by simp, h10]
                rfl
              rw [this]; rfl
    · rw [decide_eq_false hd]
      simp only [Bool.false_eq_true, if_false]
      rw [wpc_pure]
      refine ⟨h1.trans hfs, h2, [], rfl, List.nodup_nil, List.Pairwise.nil, ?_⟩
      intro ds
      simp only [List.not_mem_nil, false_iff]
      rintro ⟨t, h0, rfl, h⟩
      apply hd
      have h10 := headerOf_node ht hb h
      apply ht.prefix_dir _ t _ h0
      rw [List.append_assoc, h10]
      rfl

end Verif
