import Verif.Proof.Tree
/-!
# Listing
-/

set_option autoImplicit false

namespace Verif

open Spec

theorem Spec.Listed.cons_iff (fs : FS) (r : Key) (c : CStr) (t : List CStr) :
    Listed fs r (c :: t) ↔ IsName c ∧ c.head? ≠ some 46 ∧
      ((t = [] ∧ HasHeader fs (r ++ [c])) ∨ (¬ HasHeader fs (r ++ [c]) ∧ Listed fs (r ++ [c]) t)) := by
  constructor
  · intro h
    refine ⟨h.names c (by simp), h.nodots c (by simp), ?_⟩
    cases t with
    | nil => exact Or.inl ⟨rfl, h.header⟩
    | cons d t =>
      right
      refine ⟨?_, ⟨by simp, fun x hx => h.names x (List.mem_cons_of_mem _ hx),
        fun x hx => h.nodots x (List.mem_cons_of_mem _ hx), ?_, ?_⟩⟩
      · have := h.outer 1 (by omega) (by simp)
        simpa using this
      · have := h.header
        rw [List.append_assoc]
        exact this
      · intro j h1 h2
        have := h.outer (j + 1) (by omega) (by simpa using h2)
        rw [List.append_assoc]
        exact this
  · rintro ⟨h1, h2, ⟨rfl, h3⟩ | ⟨h3, h4⟩⟩
    · exact ⟨by simp, by simpa using h1, by simpa using h2, h3, fun j a b => by simp at b; omega⟩
    · refine ⟨by simp, ?_, ?_, ?_, ?_⟩
      · intro x hx
        rcases List.mem_cons.mp hx with rfl | hx
        · exact h1
        · exact h4.names x hx
      · intro x hx
        rcases List.mem_cons.mp hx with rfl | hx
        · exact h2
        · exact h4.nodots x hx
      · have := h4.header
        rw [List.append_assoc] at this
        exact this
      · intro j a b
        cases j with
        | zero => omega
        | succ j =>
          cases j with
          | zero => simpa using h3
          | succ j =>
            have := h4.outer (j + 1) (by omega) (by simpa using b)
            rw [List.append_assoc] at this
            exact this

theorem wpc_scandir (sort : List CStr → List CStr) (path : CStr) (w : World) (hnf : w.faults = noFaults)
    (hp : path ≠ []) (Q : Option (List CStr) → World → Prop) (C : World → Prop)
    (h : ∀ w', w'.fs = w.fs → w'.faults = w.faults →
      Q (if w.fs.node (resolve path) = some .dir then
        some (sort ((w.fs.entries (resolve path)).filter fun c => c.head? != some 46)) else none) w') :
    wpc (scandir sort path) w Q C := by
  unfold scandir
  rw [wpc_bind, wpc_tick, hnf]
  simp only [noFaults]
  rw [wpc_bind, wpc_getFS]
  have h' := h { w with clock := w.clock + 1 } rfl rfl
  dsimp only at h' ⊢
  by_cases hd : w.fs.node (resolve path) = some .dir
  · rw [if_pos ⟨hp, hd⟩, wpc_pure]
    rw [if_pos hd] at h'
    rw [← hnf]
    exact h'
  · rw [if_neg (fun hc => hd hc.2), wpc_pure]
    rw [if_neg hd] at h'
    rw [← hnf]
    exact h'

theorem wpc_pathIsBlock (path : CStr) (w : World) (hnf : w.faults = noFaults)
    (Q : Bool → World → Prop) (C : World → Prop)
    (h : ∀ w', w'.fs = w.fs → w'.faults = w.faults →
      Q (w.fs.node (resolve path ++ [b!"header"])).isSome w') :
    wpc (pathIsBlock path) w Q C := by
  unfold pathIsBlock openAFile
  apply wpc_fopen_r
  · intro b w' h1 h2 h3 h4
    have h5 := h w' h1 h2
    have h6 : resolve (filePath path .header) = resolve path ++ [b!"header"] := fileKey_eq path .header
    rw [h6] at h4
    rw [h4 hnf]
    exact h5
  · intro w' _ h1
    exact absurd hnf h1

/-- The loop over entries: each entry contributes the paths described by `P`. -/
theorem listEntries_spec (fs : FS) (visit : CStr → List CStr → M (List CStr)) (name : CStr)
    (P : CStr → List CStr → Prop) (hdisj : ∀ e e' ds, P e ds → P e' ds → e = e') :
    ∀ (es acc : List CStr) (w : World), w.fs = fs → w.faults = noFaults → es.Nodup →
    (∀ e, e ∈ es → ∀ (acc : List CStr) (w : World), w.fs = fs → w.faults = noFaults →
      wpc (visit (pathJoin name e) acc) w (fun l w' => w'.fs = fs ∧ w'.faults = noFaults ∧
        ∃ L : List (List CStr), l = L.map joinNames ++ acc ∧ L.Nodup ∧ ∀ ds, ds ∈ L ↔ P e ds) (fun _ => False)) →
    wpc (listEntries visit name es acc) w (fun l w' => w'.fs = fs ∧ w'.faults = noFaults ∧
      ∃ L : List (List CStr), l = L.map joinNames ++ acc ∧ L.Nodup ∧ ∀ ds, ds ∈ L ↔ ∃ e, e ∈ es ∧ P e ds)
      (fun _ => False) := by
  intro es
  induction es with
  | nil =>
    intro acc w h1 h2 _ _
    exact ⟨h1, h2, [], rfl, List.nodup_nil, by simp⟩
  | cons e es ih =>
    intro acc w h1 h2 hnd hv
    unfold listEntries
    rw [wpc_bind]
    refine wpc_mono (hv e (by simp) acc w h1 h2) ?_ (fun _ h => h)
    rintro l1 w1 ⟨h3, h4, L1, rfl, h5, h6⟩
    rw [List.nodup_cons] at hnd
    refine wpc_mono (ih _ w1 h3 h4 hnd.2 (fun e' he' => hv e' (List.mem_cons_of_mem _ he'))) ?_ (fun _ h => h)
    rintro l2 w2 ⟨h7, h8, L2, rfl, h9, h10⟩
    refine ⟨h7, h8, L2 ++ L1, by simp, ?_, ?_⟩
    · rw [List.nodup_append]
      refine ⟨h9, h5, ?_⟩
      intro a ha b hb hab
      subst hab
      obtain ⟨e', he', hp'⟩ := (h10 a).mp ha
      have := hdisj e' e a hp' ((h6 a).mp hb)
      subst this
      exact hnd.1 he'
    · intro ds
      rw [List.mem_append, h6, h10]
      constructor
      · rintro (⟨e', he', hp'⟩ | h)
        · exact ⟨e', List.mem_cons_of_mem _ he', hp'⟩
        · exact ⟨e, by simp, h⟩
      · rintro ⟨e', he', hp'⟩
        rcases List.mem_cons.mp he' with rfl | he'
        · exact Or.inr hp'
        · exact Or.inl ⟨e', he', hp'⟩

theorem FS.le_depth (fs : FS) (k : Key) (h : k ∈ fs.dom) : k.length + 2 ≤ fs.depth := by
  unfold FS.depth
  have : ∀ l : List Key, k ∈ l → k.length ≤ l.foldr (fun k d => max k.length d) 0 := by
    intro l hl
    induction l with
    | nil => simp at hl
    | cons a l ih =>
      rw [List.foldr_cons]
      rcases List.mem_cons.mp hl with rfl | hl
      · omega
      · have := ih hl; omega
  have := this fs.dom h
  omega

theorem Spec.TreeOk.entry_name {fs : FS} (h : TreeOk fs) {k : Key} {c : CStr} (hc : c ∈ fs.entries k) :
    IsName c := by
  rw [h.entries] at hc
  rcases h.keys _ hc.2 with h1 | ⟨t, h1, h2⟩
  · exact h1 c (by simp)
  · cases k with
    | nil =>
      simp only [List.nil_append, List.cons.injEq] at h1
      exact absurd h1.1 hc.1
    | cons a k =>
      simp only [List.cons_append, List.cons.injEq] at h1
      exact h2 c (by rw [← h1.2]; simp)

theorem listR_spec (sort : List CStr → List CStr) (hsort : ∀ l, (sort l).Perm l) (base : CStr)
    (hb : base ≠ []) (fs : FS) (ht : TreeOk fs) : ∀ (fuel : Nat) (cs acc : List CStr) (w : World),
    w.fs = fs → w.faults = noFaults → (∀ c ∈ cs, IsName c) → 1 ≤ fuel →
    fs.depth ≤ fuel + (resolve base ++ cs).length →
    wpc (listR sort base fuel (joinNames cs) acc) w
      (fun l w' => w'.fs = fs ∧ w'.faults = noFaults ∧
        ∃ L : List (List CStr), l = L.map joinNames ++ acc ∧ L.Nodup ∧
          ∀ ds, ds ∈ L ↔ ∃ t, ds = cs ++ t ∧ Listed fs (resolve base ++ cs) t)
      (fun _ => False) := by
  intro fuel
  induction fuel with
  | zero => intro cs acc w _ _ _ h; omega
  | succ fuel ih =>
    intro cs acc w hfs hnf hcs _ hdep
    unfold listR
    rw [wpc_bind]
    have hpne : pathJoin base (joinNames cs) ≠ [] := by
      intro hc
      rw [pathJoin_eq_nil] at hc
      exact hb hc.1
    have hres : resolve (pathJoin base (joinNames cs)) = resolve base ++ cs := by
      rw [resolve_join base _ hb, names_joinNames cs hcs]
    apply wpc_scandir sort _ w hnf hpne
    intro w1 h1 h2
    rw [hres, hfs]
    by_cases hd : fs.node (resolve base ++ cs) = some .dir
    · rw [if_pos hd]
      dsimp only
      have hmem : ∀ e, e ∈ sort ((fs.entries (resolve base ++ cs)).filter fun c => c.head? != some 46) ↔
          e ∈ fs.entries (resolve base ++ cs) ∧ e.head? ≠ some 46 := by
        intro e
        rw [(hsort _).mem_iff, List.mem_filter]
        simp
      have hnd : (sort ((fs.entries (resolve base ++ cs)).filter fun c => c.head? != some 46)).Nodup :=
        (hsort _).nodup_iff.mpr ((ht.entries_nodup _).filter _)
      refine wpc_mono (listEntries_spec fs _ (joinNames cs)
        (fun e ds => ∃ t, ds = cs ++ e :: t ∧ Listed fs (resolve base ++ cs) (e :: t)) ?_
        _ acc w1 (h1.trans hfs) (h2.trans hnf) hnd ?_) ?_ (fun _ h => h)
      · rintro e e' ds ⟨t, ht1, _⟩ ⟨t', ht2, _⟩
        rw [ht1] at ht2
        have := List.append_cancel_left ht2
        simp only [List.cons.injEq] at this
        exact this.1
      · intro e he acc w2 h3 h4
        rw [hmem] at he
        have hname := ht.entry_name he.1
        have hsome := ((ht.entries _ e).mp he.1).2
        have hcs' : ∀ c ∈ cs ++ [e], IsName c := by
          intro c hc
          rcases List.mem_append.mp hc with hc | hc
          · exact hcs c hc
          · rw [List.mem_singleton] at hc; rw [hc]; exact hname
        rw [joinNames_snoc cs e hcs, wpc_bind]
        apply wpc_pathIsBlock _ w2 h4
        intro w3 h5 h6
        rw [resolve_join base _ hb, names_joinNames _ hcs', h3]
        by_cases hh : HasHeader fs (resolve base ++ cs ++ [e])
        · have hh' : (fs.node (resolve base ++ (cs ++ [e]) ++ [b!"header"])).isSome = true := by
            rw [← List.append_assoc (resolve base)]; exact hh
          rw [if_pos hh', wpc_pure]
          refine ⟨h5.trans h3, h6.trans h4, [cs ++ [e]], rfl, by simp, ?_⟩
          intro ds
          rw [List.mem_singleton]
          constructor
          · rintro rfl
            exact ⟨[], rfl, (Listed.cons_iff _ _ _ _).mpr ⟨hname, he.2, Or.inl ⟨rfl, hh⟩⟩⟩
          · rintro ⟨t, rfl, hl⟩
            rcases ((Listed.cons_iff _ _ _ _).mp hl).2.2 with ⟨rfl, _⟩ | ⟨h7, _⟩
            · rfl
            · exact absurd hh h7
        · have hh' : ¬ (fs.node (resolve base ++ (cs ++ [e]) ++ [b!"header"])).isSome = true := by
            rw [← List.append_assoc (resolve base)]; exact hh
          rw [if_neg hh']
          have hlen := FS.le_depth fs _ (ht.dom _ hsome)
          refine wpc_mono (ih (cs ++ [e]) acc w3 (h5.trans h3) (h6.trans h4) hcs' ?_ ?_) ?_ (fun _ h => h)
          · simp only [List.length_append, List.length_singleton] at hlen hdep
            omega
          · simp only [List.length_append, List.length_singleton] at hlen hdep ⊢
            omega
          · rintro l w4 ⟨h7, h8, L, rfl, h9, h10⟩
            refine ⟨h7, h8, L, rfl, h9, ?_⟩
            intro ds
            rw [h10]
            constructor
            · rintro ⟨t, rfl, hl⟩
              refine ⟨t, by simp, (Listed.cons_iff _ _ _ _).mpr ⟨hname, he.2, Or.inr ⟨hh, ?_⟩⟩⟩
              rw [List.append_assoc]; exact hl
            · rintro ⟨t, rfl, hl⟩
              rcases ((Listed.cons_iff _ _ _ _).mp hl).2.2 with ⟨_, h11⟩ | ⟨_, h11⟩
              · exact absurd h11 hh
              · exact ⟨t, by simp, by rw [← List.append_assoc]; exact h11⟩
      · rintro l w2 ⟨h3, h4, L, rfl, h5, h6⟩
        refine ⟨h3, h4, L, rfl, h5, ?_⟩
        intro ds
        rw [h6]
        constructor
        · rintro ⟨e, _, t, rfl, hl⟩
          exact ⟨e :: t, rfl, hl⟩
        · rintro ⟨t, rfl, hl⟩
          cases t with
          | nil => exact absurd rfl hl.ne
          | cons e t =>
            refine ⟨e, (hmem e).mpr ⟨?_, hl.nodots e (by simp)⟩, t, rfl, hl⟩
            rw [ht.entries]
            refine ⟨(hl.names e (by simp)).ne, ?_⟩
            have h7 := hl.header
            unfold HasHeader at h7
            have : fs.node (resolve base ++ cs ++ [e]) = some .dir := by
              apply ht.prefix_dir _ (t ++ [b!"header"])
              · simpa using h7
              · simp
            rw [this]; rfl
    · rw [if_neg hd]
      dsimp only
      rw [wpc_pure]
      refine ⟨h1.trans hfs, h2.trans hnf, [], rfl, List.nodup_nil, ?_⟩
      intro ds
      simp only [List.not_mem_nil, false_iff]
      rintro ⟨t, rfl, hl⟩
      apply hd
      have h7 := hl.header
      unfold HasHeader at h7
      rw [List.append_assoc] at h7
      exact ht.prefix_dir _ _ h7 (by simp)

end Verif
