import Verif.Spec.Attr
import Verif.Proof.ConvertSimple
import Verif.Spec.AttrInv
/-!
# The attribute set refines a finite map
-/

set_option autoImplicit false

namespace Verif

open Spec

/-! ## Order of names -/

theorem strcmp_eq_iff (a b : CStr) : strcmp a b = .eq ↔ a = b := by
  induction a generalizing b with
  | nil => cases b <;> simp [strcmp]
  | cons x a ih =>
    cases b with
    | nil => simp [strcmp]
    | cons y b =>
      simp only [strcmp]
      split
      · rename_i h; simp; intro e; subst e; exact absurd h (UInt8.lt_irrefl x)
      · split
        · rename_i h1 h2; simp; intro e; subst e; exact absurd h2 (UInt8.lt_irrefl x)
        · rename_i h1 h2
          rw [ih]
          have : x = y := UInt8.le_antisymm (UInt8.not_lt.mp h2) (UInt8.not_lt.mp h1)
          simp [this]

theorem strcmp_refl (a : CStr) : strcmp a a = .eq := (strcmp_eq_iff a a).mpr rfl

theorem strcmp_gt_iff (a b : CStr) : strcmp a b = .gt ↔ strcmp b a = .lt := by
  induction a generalizing b with
  | nil => cases b <;> simp [strcmp]
  | cons x a ih =>
    cases b with
    | nil => simp [strcmp]
    | cons y b =>
      simp only [strcmp]
      by_cases h1 : x < y
      · have h2 : ¬ y < x := fun h => UInt8.lt_irrefl x (UInt8.lt_trans h1 h)
        simp [h1, h2]
      · by_cases h2 : y < x
        · simp [h1, h2]
        · simp [h1, h2, ih]

theorem strcmp_lt_trans {a b c : CStr} (h1 : strcmp a b = .lt) (h2 : strcmp b c = .lt) :
    strcmp a c = .lt := by
  induction a generalizing b c with
  | nil =>
    cases b with
    | nil => simp [strcmp] at h1
    | cons y b =>
      cases c with
      | nil => simp [strcmp] at h2
      | cons => simp [strcmp]
  | cons x a ih =>
    cases b with
    | nil => simp [strcmp] at h1
    | cons y b =>
      cases c with
      | nil => simp [strcmp] at h2
      | cons z c =>
        simp only [strcmp] at *
        by_cases hxy : x < y
        · by_cases hyz : y < z
          · simp [UInt8.lt_trans hxy hyz]
          · by_cases hzy : z < y
            · simp [hyz, hzy] at h2
            · have : y = z := UInt8.le_antisymm (UInt8.not_lt.mp hzy) (UInt8.not_lt.mp hyz)
              subst this
              simp [hxy]
        · by_cases hyx : y < x
          · simp [hxy, hyx] at h1
          · have e : x = y := UInt8.le_antisymm (UInt8.not_lt.mp hyx) (UInt8.not_lt.mp hxy)
            subst e
            simp only [hxy, if_false] at h1
            by_cases hyz : x < z
            · simp [hyz]
            · by_cases hzy : z < x
              · simp [hyz, hzy] at h2
              · simp only [hyz, hzy, if_false] at h2 ⊢
                exact ih h1 h2

theorem strcmp_lt_ne {a b : CStr} (h : strcmp a b = .lt) : a ≠ b := by
  intro e; subst e; rw [strcmp_refl] at h; exact absurd h (by decide)

/-! ## Entries -/

theorem attrsetCreate_inv (env : Env) : AttrInv env.m (attrsetCreate env) [] :=
  ⟨rfl, by simp, List.Pairwise.nil, List.Pairwise.nil, by simp [attrsetCreate], by simp [attrsetCreate]⟩

/-- The name of an entry is the string at its address. -/
theorem cstrAt_peek (m : Mem) (nm : CStr) (h0 : (0 : Byte) ∉ nm) : ∀ (a : Int) (fuel : Nat),
    nm.length < fuel → peek m a (nm.length + 1) = nm ++ [0] → cstrAt m a fuel = nm := by
  induction nm with
  | nil =>
    intro a fuel hf hp
    cases fuel with
    | zero => omega
    | succ f =>
      simp only [List.length_nil, peek, List.nil_append, List.cons.injEq, and_true] at hp
      simp [cstrAt, hp]
  | cons c nm ih =>
    intro a fuel hf hp
    cases fuel with
    | zero => simp at hf
    | succ f =>
      simp only [List.length_cons, peek, List.cons_append, List.cons.injEq] at hp hf
      simp only [List.mem_cons, not_or] at h0
      unfold cstrAt
      rw [if_neg (by rw [hp.1]; exact fun h => h0.1 h.symm)]
      rw [hp.1]
      congr 1
      apply ih h0.2 (a + 1) f (by omega)
      simp only [peek]
      exact hp.2

theorem peek_prefix {m : Mem} {a : Int} {xs ys : List Byte} {n : Nat} (h : peek m a n = xs ++ ys) :
    peek m a xs.length = xs ∧ peek m (a + xs.length) ys.length = ys := by
  have hl := congrArg List.length h
  simp only [peek_length, List.length_append] at hl
  subst hl
  rw [peek_add] at h
  exact List.append_inj h (by simp [peek_length])

theorem EntryOk.nameOf {m : Machine} {s : AttrSet} {e : Entry} (h : EntryOk m s e) :
    s.nameOf (e.attr s.base) = e.name := by
  unfold AttrSet.nameOf Entry.attr
  simp only
  have hi := h.inside
  unfold Entry.len at hi
  apply cstrAt_peek _ _ h.nonul _ _ (by omega)
  have hm := h.mem
  rw [show e.name ++ 0 :: e.val.bytes = (e.name ++ [0]) ++ e.val.bytes by simp] at hm
  have := (peek_prefix hm).1
  simpa using this

theorem EntryOk.data {m : Machine} {s : AttrSet} {e : Entry} (h : EntryOk m s e) :
    peek s.buf (s.base + e.off + e.name.length + 1) e.val.bytes.length = e.val.bytes := by
  have hm := h.mem
  rw [show e.name ++ 0 :: e.val.bytes = (e.name ++ [0]) ++ e.val.bytes by simp] at hm
  have := (peek_prefix hm).2
  simp only [List.length_append, List.length_singleton] at this
  rw [show s.base + e.off + e.name.length + 1 = s.base + e.off + ((e.name.length + 1 : Nat) : Int) by omega]
  exact this

theorem EntryOk.len_eq {m : Machine} {s : AttrSet} {e : Entry} (h : EntryOk m s e) :
    (itemsize m e.val.dtype * (e.val.nmemb : Int)).toNat = e.val.bytes.length := by
  rw [← h.nbytes]; omega

/-- An entry keeps its bytes if the buffer keeps them. -/
theorem EntryOk.keep {m : Machine} {s s' : AttrSet} {e : Entry} (h : EntryOk m s e)
    (hu : s.bufused ≤ s'.bufused)
    (hb : ∀ i : Nat, i < e.len → s'.buf (s'.base + e.off + i) = s.buf (s.base + e.off + i)) :
    EntryOk m s' e := by
  refine ⟨h.nonul, Nat.le_trans h.inside hu, ?_, h.norm, h.item, h.nbytes, h.fits⟩
  rw [← h.mem]
  apply peek_ext
  intro i hi
  exact hb i hi

/-! ## Looking up -/

theorem AttrInv.dirty {m : Machine} {s : AttrSet} {es : List Entry} (h : AttrInv m s es) (d : Bool) :
    AttrInv m { s with dirty := d } es :=
  ⟨h.list, fun e he => (h.ok e he).keep (Nat.le_refl _) (fun _ _ => rfl), h.sorted, h.disj, h.used, h.size⟩

theorem AttrInv.view {m : Machine} {s : AttrSet} {es : List Entry} (h : AttrInv m s es) :
    attrView m s = findE es := by
  funext name
  unfold attrView findE
  rw [h.list]
  have key : ∀ l : List Entry, (∀ e ∈ l, EntryOk m s e) →
      ((l.map (Entry.attr s.base)).find? (fun a => s.nameOf a == name)).map
        (fun a => AttrVal.mk a.dtype a.nmemb.toNat
          (peek s.buf a.data (itemsize m a.dtype * a.nmemb).toNat)) =
      (l.find? (fun e => e.name == name)).map (·.val) := by
    intro l
    induction l with
    | nil => intro _; rfl
    | cons e l ih =>
      intro hl
      have he := hl e (by simp)
      simp only [List.map_cons, List.find?_cons]
      rw [he.nameOf]
      split
      · simp only [Option.map_some, Option.some.injEq]
        unfold Entry.attr
        simp only [Int.toNat_natCast]
        rw [he.len_eq, he.data]
      · exact ih (fun x hx => hl x (by simp [hx]))
  exact key es h.ok

theorem findE_none {es : List Entry} {name : CStr} (h : ∀ e ∈ es, e.name ≠ name) : findE es name = none := by
  unfold findE
  rw [List.find?_eq_none.mpr]
  · rfl
  · intro e he; simpa using h e he

theorem sortedE_unique {es : List Entry} (h : SortedE es) {e e' : Entry} (he : e ∈ es) (he' : e' ∈ es)
    (hn : e.name = e'.name) : e = e' := by
  induction es with
  | nil => simp at he
  | cons x es ih =>
    simp only [SortedE, List.pairwise_cons] at h
    simp only [List.mem_cons] at he he'
    rcases he with rfl | he <;> rcases he' with rfl | he'
    · rfl
    · exact absurd hn (strcmp_lt_ne (h.1 e' he'))
    · exact absurd hn.symm (strcmp_lt_ne (h.1 e he))
    · exact ih h.2 he he'

theorem findE_mem {es : List Entry} (h : SortedE es) {e : Entry} (he : e ∈ es) :
    findE es e.name = some e.val := by
  unfold findE
  match hf : es.find? (fun x => x.name == e.name) with
  | none =>
    rw [List.find?_eq_none] at hf
    exact absurd (hf e he) (by simp)
  | some x =>
    have h1 := List.find?_some hf
    have h2 := List.mem_of_find?_eq_some hf
    simp only [beq_iff_eq] at h1
    rw [hf, sortedE_unique h h2 he h1]
    rfl

theorem findE_some {es : List Entry} {name : CStr} {v : AttrVal} (h : findE es name = some v) :
    ∃ e ∈ es, e.name = name ∧ e.val = v := by
  unfold findE at h
  simp only [Option.map_eq_some_iff] at h
  obtain ⟨e, h1, h2⟩ := h
  have := List.find?_some h1
  simp only [beq_iff_eq] at this
  exact ⟨e, List.mem_of_find?_eq_some h1, this, h2⟩

/-- The binary search finds the name if it is there. -/
theorem bsearch_spec {m : Machine} {s : AttrSet} {es : List Entry} (h : AttrInv m s es) (key : CStr) :
    ∀ (n lo hi : Nat), hi - lo ≤ n → hi ≤ es.length →
    (∀ i, bsearchAttr s key n lo hi = some i → ∃ e, es[i]? = some e ∧ e.name = key) ∧
    (bsearchAttr s key n lo hi = none → ∀ i e, lo ≤ i → i < hi → es[i]? = some e → e.name ≠ key) := by
  intro n
  induction n with
  | zero =>
    intro lo hi hn hhi
    refine ⟨by simp [bsearchAttr], ?_⟩
    intro _ i e h1 h2
    omega
  | succ n ih =>
    intro lo hi hn hhi
    unfold bsearchAttr
    split
    · rename_i hlt
      have hmid : (lo + hi) / 2 < es.length := by omega
      have hl : s.list[(lo + hi) / 2]? = some (es[(lo + hi) / 2].attr s.base) := by
        rw [h.list, List.getElem?_map, List.getElem?_eq_getElem hmid]; rfl
      simp only
      rw [hl]
      have hnm := (h.ok es[(lo + hi) / 2] (List.getElem_mem hmid)).nameOf
      simp only [hnm]
      have sorted : ∀ i j (hi : i < es.length) (hj : j < es.length), i < j →
          strcmp es[i].name es[j].name = .lt := by
        intro i j hi hj hij
        exact List.pairwise_iff_getElem.mp h.sorted i j hi hj hij
      split
      · rename_i hc
        obtain ⟨h1, h2⟩ := ih lo ((lo + hi) / 2) (by omega) (by omega)
        refine ⟨h1, ?_⟩
        intro hnone i e hlo hi' he
        by_cases hi2 : i < (lo + hi) / 2
        · exact h2 hnone i e hlo hi2 he
        · intro hk
          have hil : i < es.length := by omega
          rw [List.getElem?_eq_getElem hil] at he
          injection he with he
          subst hk
          rcases Nat.lt_or_eq_of_le (show (lo + hi) / 2 ≤ i by omega) with hgt | heq
          · have := sorted _ _ hmid hil hgt
            rw [he] at this
            have := strcmp_lt_trans hc this
            rw [strcmp_refl] at this
            exact absurd this (by decide)
          · simp only [heq, he, strcmp_refl] at hc
            exact absurd hc (by decide)
      · rename_i hc
        obtain ⟨h1, h2⟩ := ih ((lo + hi) / 2 + 1) hi (by omega) hhi
        refine ⟨h1, ?_⟩
        intro hnone i e hlo hi' he
        by_cases hi2 : (lo + hi) / 2 + 1 ≤ i
        · exact h2 hnone i e hi2 hi' he
        · intro hk
          have hil : i < es.length := by omega
          rw [List.getElem?_eq_getElem hil] at he
          injection he with he
          subst hk
          rw [strcmp_gt_iff] at hc
          rcases Nat.lt_or_eq_of_le (show i ≤ (lo + hi) / 2 by omega) with hgt | heq
          · have := sorted _ _ hil hmid hgt
            rw [he] at this
            have := strcmp_lt_trans hc this
            rw [strcmp_refl] at this
            exact absurd this (by decide)
          · simp only [← heq, he, strcmp_refl] at hc
            exact absurd hc (by decide)
      · rename_i hc
        refine ⟨?_, by simp⟩
        intro i hi'
        simp only [Option.some.injEq] at hi'
        subst hi'
        exact ⟨_, List.getElem?_eq_getElem hmid, ((strcmp_eq_iff _ _).mp hc).symm⟩
    · refine ⟨by simp, ?_⟩
      intro _ i e h1 h2
      omega

theorem lookup_some {m : Machine} {s : AttrSet} {es : List Entry} (h : AttrInv m s es) {name : CStr} {i : Nat}
    (hl : lookupAttr s name = some i) : ∃ e, es[i]? = some e ∧ e.name = name := by
  unfold lookupAttr at hl
  have hlen : s.list.length = es.length := by rw [h.list]; simp
  rw [hlen] at hl
  exact (bsearch_spec h name es.length 0 es.length (by omega) (Nat.le_refl _)).1 i hl

theorem lookup_none {m : Machine} {s : AttrSet} {es : List Entry} (h : AttrInv m s es) {name : CStr}
    (hl : lookupAttr s name = none) : ∀ e ∈ es, e.name ≠ name := by
  unfold lookupAttr at hl
  have hlen : s.list.length = es.length := by rw [h.list]; simp
  rw [hlen] at hl
  intro e he
  obtain ⟨i, hi, rfl⟩ := List.getElem_of_mem he
  exact (bsearch_spec h name es.length 0 es.length (by omega) (Nat.le_refl _)).2 hl i _ (Nat.zero_le _) hi
    (List.getElem?_eq_getElem hi)

theorem lookup_find {m : Machine} {s : AttrSet} {es : List Entry} (h : AttrInv m s es) (name : CStr) :
    (lookupAttr s name = none ∧ findE es name = none ∧ ∀ e ∈ es, e.name ≠ name) ∨
    (∃ i e, lookupAttr s name = some i ∧ es[i]? = some e ∧ e ∈ es ∧ e.name = name ∧
      s.list[i]? = some (e.attr s.base) ∧ findE es name = some e.val) := by
  match hl : lookupAttr s name with
  | none =>
    left
    have := lookup_none h hl
    exact ⟨rfl, findE_none this, this⟩
  | some i =>
    right
    obtain ⟨e, he, hn⟩ := lookup_some h hl
    have hm := List.mem_of_getElem? he
    refine ⟨i, e, rfl, he, hm, hn, ?_, ?_⟩
    · rw [h.list, List.getElem?_map, he]; rfl
    · rw [← hn]; exact findE_mem h.sorted hm

/-! ## Removing -/

theorem eraseIdx_sublist {α : Type} (l : List α) (i : Nat) : (l.eraseIdx i).Sublist l := List.eraseIdx_sublist l i

theorem eraseIdx_map' {α β : Type} (f : α → β) (l : List α) (i : Nat) :
    (l.map f).eraseIdx i = (l.eraseIdx i).map f := by
  induction l generalizing i with
  | nil => rfl
  | cons a l ih => cases i <;> simp [ih]

theorem removeAttr_spec {m : Machine} {s : AttrSet} {es : List Entry} (h : AttrInv m s es) (name : CStr) :
    ∃ es', AttrInv m (removeAttr s name).2 es' ∧
      (removeAttr s name).1 = (if (findE es name).isSome then 0 else -1) ∧
      findE es' = (findE es).del name ∧ (∀ e ∈ es', e ∈ es ∧ e.name ≠ name) ∧
      (∀ e ∈ es, e.name ≠ name → e ∈ es') ∧
      ∃ l, (removeAttr s name).2 = { s with list := l } := by
  unfold removeAttr
  rcases lookup_find h name with ⟨h1, h2, h3⟩ | ⟨i, e, h1, h2, h3, h4, h5, h6⟩
  · rw [h1]
    refine ⟨es, h, by simp [h2], ?_, fun e he => ⟨he, h3 e he⟩, fun e he _ => he, s.list, rfl⟩
    funext x
    unfold AttrMap.del
    split
    · rename_i hx; subst hx; exact h2
    · rfl
  · rw [h1]
    have hil : i < es.length := by
      rcases Nat.lt_or_ge i es.length with hh | hh
      · exact hh
      · rw [List.getElem?_eq_none hh] at h2; simp at h2
    have hmem : ∀ x, x ∈ es.eraseIdx i ↔ x ∈ es ∧ x.name ≠ name := by
      intro x
      rw [List.mem_eraseIdx_iff_getElem]
      constructor
      · rintro ⟨j, hj, hne, rfl⟩
        refine ⟨List.getElem_mem hj, ?_⟩
        intro hc
        have hxe := sortedE_unique h.sorted (List.getElem_mem hj) h3 (by rw [hc, h4])
        rw [List.getElem?_eq_getElem hil] at h2
        injection h2 with h2
        rw [← h2] at hxe
        have hp := List.pairwise_iff_getElem.mp h.sorted
        rcases Nat.lt_or_gt_of_ne hne with hlt | hlt
        · have := hp j i hj hil hlt
          rw [hxe, strcmp_refl] at this; exact absurd this (by decide)
        · have := hp i j hil hj hlt
          rw [hxe, strcmp_refl] at this; exact absurd this (by decide)
      · rintro ⟨hx, hn⟩
        obtain ⟨j, hj, rfl⟩ := List.getElem_of_mem hx
        refine ⟨j, hj, ?_, rfl⟩
        intro hji
        subst hji
        rw [List.getElem?_eq_getElem hj] at h2
        injection h2 with h2
        rw [h2] at hn
        exact hn h4
    have hsub := eraseIdx_sublist es i
    refine ⟨es.eraseIdx i, ⟨?_, ?_, h.sorted.sublist hsub, h.disj.sublist hsub, h.used, h.size⟩, by simp [h6], ?_,
      fun e he => (hmem e).mp he, fun e he hn => (hmem e).mpr ⟨he, hn⟩, _, rfl⟩
    · simp only
      rw [h.list, eraseIdx_map']
    · intro x hx
      exact (h.ok x ((hmem x).mp hx).1).keep (Nat.le_refl _) (fun _ _ => rfl)
    · funext x
      unfold AttrMap.del
      split
      · rename_i hx
        subst hx
        exact findE_none (fun e he => ((hmem e).mp he).2)
      · rename_i hx
        match hf : findE es x with
        | none =>
          apply findE_none
          intro e he hc
          have := findE_mem h.sorted ((hmem e).mp he).1
          rw [hc, hf] at this
          exact absurd this (by simp)
        | some v =>
          obtain ⟨e', he', hn', hv'⟩ := findE_some hf
          have := findE_mem (h.sorted.sublist hsub) ((hmem e').mpr ⟨he', by rw [hn']; exact hx⟩)
          rw [hn', hv'] at this
          exact this

end Verif
