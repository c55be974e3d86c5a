import Verif.Proof.Attr
/-!
# Setting, getting and listing attributes
-/

set_option autoImplicit false

namespace Verif

open Spec

/-! ## Growing the buffer -/

theorem growBufOnce_inv {env : Env} {m : Machine} {s : AttrSet} {es : List Entry} (h : AttrInv m s es) :
    AttrInv m (growBufOnce env s) es := by
  refine ⟨?_, ?_, h.sorted, h.disj, ?_, ?_⟩
  · simp only [growBufOnce]
    rw [h.list, List.map_map, List.map_map]
    apply List.map_congr_left
    intro e _
    simp only [Function.comp, Entry.attr, Attr.mk.injEq, true_and]
    constructor <;> omega
  · intro e he
    refine (h.ok e he).keep (Nat.le_refl _) ?_
    intro i _
    simp only [growBufOnce]
    congr 1
    omega
  · have := h.used; simp only [growBufOnce]; omega
  · have := h.size; simp only [growBufOnce]; omega

theorem growBuf_spec {env : Env} {m : Machine} (es : List Entry) (size : Nat) : ∀ (k : Nat) (s : AttrSet),
    AttrInv m s es → s.bufused + size ≤ s.bufsize * 2 ^ k →
    ∃ s', growBuf env size k s = some s' ∧ AttrInv m s' es ∧ s'.bufused = s.bufused ∧
      s'.bufused + size ≤ s'.bufsize ∧ s'.dirty = s.dirty := by
  intro k
  induction k with
  | zero =>
    intro s h hk
    have := h.used
    simp only [Nat.pow_zero, Nat.mul_one] at hk
    refine ⟨s, ?_, h, rfl, hk, rfl⟩
    unfold growBuf
    rw [if_neg (by omega)]
  | succ k ih =>
    intro s h hk
    have hu := h.used
    unfold growBuf
    split
    · obtain ⟨s', h1, h2, h3, h4, h5⟩ := ih (growBufOnce env s) (growBufOnce_inv h) (by
        simp only [growBufOnce]
        rw [Nat.pow_succ] at hk
        rw [Nat.mul_assoc, Nat.mul_comm 2]
        exact hk)
      exact ⟨s', h1, h2, by rw [h3]; rfl, h4, by rw [h5]; rfl⟩
    · exact ⟨s, rfl, h, rfl, by omega, rfl⟩

/-! ## Sorting -/

/-- Insertion by name. -/
def insE (e : Entry) : List Entry → List Entry
  | [] => [e]
  | x :: xs => if strcmp e.name x.name = .gt then x :: insE e xs else e :: x :: xs

/-- Sorting by name. -/
def sortE : List Entry → List Entry
  | [] => []
  | e :: es => insE e (sortE es)

theorem insE_perm (e : Entry) (es : List Entry) : (insE e es).Perm (e :: es) := by
  induction es with
  | nil => exact List.Perm.refl _
  | cons x xs ih =>
    unfold insE
    split
    · exact (List.Perm.cons x ih).trans (List.Perm.swap e x xs)
    · exact List.Perm.refl _

theorem sortE_perm (es : List Entry) : (sortE es).Perm es := by
  induction es with
  | nil => exact List.Perm.refl _
  | cons e es ih => exact (insE_perm e _).trans (List.Perm.cons e ih)

theorem insE_sorted (e : Entry) (es : List Entry) (h : SortedE es) (hn : ∀ x ∈ es, x.name ≠ e.name) :
    SortedE (insE e es) := by
  induction es with
  | nil => exact List.pairwise_singleton _ _
  | cons x xs ih =>
    simp only [SortedE, List.pairwise_cons] at h
    unfold insE
    split
    · rename_i hgt
      simp only [SortedE, List.pairwise_cons]
      refine ⟨?_, ih h.2 (fun y hy => hn y (by simp [hy]))⟩
      intro y hy
      have := (insE_perm e xs).mem_iff.mp hy
      simp only [List.mem_cons] at this
      rcases this with rfl | hy
      · exact (strcmp_gt_iff _ _).mp hgt
      · exact h.1 y hy
    · rename_i hgt
      simp only [SortedE, List.pairwise_cons]
      have hlt : strcmp e.name x.name = .lt := by
        cases hc : strcmp e.name x.name with
        | lt => rfl
        | gt => exact absurd hc hgt
        | eq => exact absurd ((strcmp_eq_iff _ _).mp hc).symm (hn x (by simp))
      refine ⟨?_, h.1, h.2⟩
      intro y hy
      simp only [List.mem_cons] at hy
      rcases hy with rfl | hy
      · exact hlt
      · exact strcmp_lt_trans hlt (h.1 y hy)

theorem sortE_sorted (es : List Entry) (h : es.Pairwise fun a b => a.name ≠ b.name) : SortedE (sortE es) := by
  induction es with
  | nil => exact List.Pairwise.nil
  | cons e es ih =>
    simp only [List.pairwise_cons] at h
    apply insE_sorted e _ (ih h.2)
    intro x hx
    exact fun hc => h.1 x ((sortE_perm es).mem_iff.mp hx) hc.symm

/-- The model's sort is the sort by name of the entries. -/
theorem insertAttr_map {m : Machine} {s : AttrSet} (e : Entry) (es : List Entry) (he : EntryOk m s e)
    (hes : ∀ x ∈ es, EntryOk m s x) :
    insertAttr s (e.attr s.base) (es.map (Entry.attr s.base)) = (insE e es).map (Entry.attr s.base) := by
  induction es with
  | nil => rfl
  | cons x xs ih =>
    simp only [List.map_cons, insertAttr, insE]
    rw [he.nameOf, (hes x (by simp)).nameOf]
    split
    · rw [List.map_cons, ih (fun y hy => hes y (by simp [hy]))]
    · rfl

theorem sortAttrs_map {m : Machine} {s : AttrSet} (es : List Entry) (hes : ∀ x ∈ es, EntryOk m s x) :
    sortAttrs s (es.map (Entry.attr s.base)) = (sortE es).map (Entry.attr s.base) := by
  induction es with
  | nil => rfl
  | cons e es ih =>
    simp only [List.map_cons, sortAttrs, sortE]
    rw [ih (fun y hy => hes y (by simp [hy])), insertAttr_map e _ (hes e (by simp))]
    intro x hx
    exact hes x (by simp [(sortE_perm es).mem_iff.mp hx])

/-! ## Adding -/

theorem findE_iff {es : List Entry} (h : SortedE es) (x : CStr) (v : AttrVal) :
    findE es x = some v ↔ ∃ e ∈ es, e.name = x ∧ e.val = v := by
  constructor
  · exact findE_some
  · rintro ⟨e, he, rfl, rfl⟩
    exact findE_mem h he

theorem growList_eq (s : AttrSet) : ∃ n, growList s = { s with listsize := n } := by
  unfold growList
  split
  · exact ⟨_, rfl⟩
  · exact ⟨s.listsize, rfl⟩

theorem addAttr_spec {env : Env} {s : AttrSet} {es : List Entry} (h : AttrInv env.m s es)
    (name dtype : CStr) (nmemb : Nat) (h0 : (0 : Byte) ∉ name) (hi : 0 < itemsize env.m dtype)
    (hfit : itemsize env.m dtype * nmemb < 2147483648) (hnl : name.length < 9223372036854775808)
    (hnew : ∀ e ∈ es, e.name ≠ name) :
    ∃ s' es' e, addAttr env s name dtype nmemb = some s' ∧ AttrInv env.m s' es' ∧ e ∈ es' ∧ e.name = name ∧
      e.val.dtype = dtypeNormalize env.m dtype ∧ e.val.nmemb = nmemb ∧
      (∀ x, x ∈ es' ↔ x ∈ es ∨ x = e) ∧ s'.dirty = s.dirty := by
  have hnn : 0 ≤ itemsize env.m dtype * (nmemb : Int) := Int.mul_nonneg (by omega) (by omega)
  obtain ⟨len, hlen⟩ : ∃ len : Nat, itemsize env.m dtype * (nmemb : Int) = len := ⟨_, (Int.toNat_of_nonneg hnn).symm⟩
  unfold addAttr
  simp only
  have hf : fitsInt (itemsize env.m dtype * nmemb) = true := by unfold fitsInt; simp; omega
  rw [hf]
  simp only [Bool.not_true, Bool.false_eq_true, if_false]
  have hsz : u64 (itemsize env.m dtype * nmemb + name.length + 1) = len + name.length + 1 := by
    rw [hlen]
    have : (len : Int) + name.length + 1 = ((len + name.length + 1 : Nat) : Int) := by omega
    rw [this, u64_of_nat (by omega)]
  rw [hsz]
  obtain ⟨s1, h1, h2, h3, h4, h5⟩ := growBuf_spec (env := env) es (len + name.length + 1) 64 s h (by
    have := h.used; have := h.size
    have : (2:Nat) ^ 64 = 18446744073709551616 := rfl
    rw [this]
    omega)
  rw [h1]
  simp only
  generalize hs2 : ({ s1 with bufused := s1.bufused + (len + name.length + 1), buf := poke s1.buf (s1.base + s1.bufused) (name ++ [0]) } : AttrSet) = s2
  obtain ⟨ls, hls⟩ := growList_eq s2
  rw [hls]
  generalize hs3 : ({ s2 with listsize := ls } : AttrSet) = s3
  -- the new entry
  have hb3 : s3.base = s1.base := by rw [← hs3, ← hs2]
  have hu3 : s3.bufused = s1.bufused + (len + name.length + 1) := by rw [← hs3, ← hs2]
  have hm3 : s3.buf = poke s1.buf (s1.base + s1.bufused) (name ++ [0]) := by rw [← hs3, ← hs2]
  have hl3 : s3.list = s1.list := by rw [← hs3, ← hs2]
  have hz3 : s3.bufsize = s1.bufsize := by rw [← hs3, ← hs2]
  have hd3 : s3.dirty = s1.dirty := by rw [← hs3, ← hs2]
  clear hs3 hls hs2
  let e : Entry := ⟨s1.bufused, name,
    ⟨dtypeNormalize env.m dtype, nmemb, peek s3.buf (s3.base + s1.bufused + name.length + 1) len⟩⟩
  have he : e.attr s3.base = ⟨nmemb, dtypeNormalize env.m dtype, s1.base + s1.bufused,
      s1.base + s1.bufused + name.length + 1⟩ := by
    simp [e, Entry.attr, hb3]
  have helen : e.len = len + name.length + 1 := by simp [e, Entry.len, peek_length]; omega
  have heok : EntryOk env.m s3 e := by
    refine ⟨h0, ?_, ?_, normalize_idem _ _, ?_, ?_, ?_⟩
    · rw [helen, hu3]; exact Nat.le_refl _
    · rw [helen]
      have : len + name.length + 1 = (name ++ [(0 : Byte)]).length + len := by simp; omega
      rw [this, peek_add]
      show peek s3.buf (s3.base + s1.bufused) _ ++ _ = name ++ 0 :: peek s3.buf (s3.base + s1.bufused + name.length + 1) len
      have e1 : peek s3.buf (s3.base + s1.bufused) (name ++ [(0:Byte)]).length = name ++ [0] := by
        rw [hm3, hb3]; exact peek_poke_same _ _ _
      rw [e1]
      simp only [List.append_assoc, List.singleton_append, List.length_append, List.length_singleton]
      congr 3
      show s3.base + (s1.bufused : Int) + _ = _
      omega
    · show 0 < itemsize env.m (dtypeNormalize env.m dtype); rw [itemsize_normalize]; exact hi
    · show ((peek s3.buf _ len).length : Int) = itemsize env.m (dtypeNormalize env.m dtype) * nmemb
      rw [itemsize_normalize, peek_length]; exact hlen.symm
    · show (peek s3.buf _ len).length < _
      rw [peek_length]; omega
  have hold : ∀ x ∈ es, EntryOk env.m s3 x := by
    intro x hx
    refine (h2.ok x hx).keep (by omega) ?_
    intro i hi
    rw [hm3, hb3]
    apply poke_outside
    have := (h2.ok x hx).inside
    omega
  have hall : ∀ x ∈ es ++ [e], EntryOk env.m s3 x := by
    intro x hx
    simp only [List.mem_append, List.mem_singleton] at hx
    rcases hx with hx | rfl
    · exact hold x hx
    · exact heok
  have hlist : s3.list ++ [Attr.mk nmemb (dtypeNormalize env.m dtype) (s1.base + s1.bufused)
      (s1.base + s1.bufused + name.length + 1)] = (es ++ [e]).map (Entry.attr s3.base) := by
    rw [← he, List.map_append, hl3, h2.list, hb3]; rfl
  rw [hlist]
  have hperm := sortE_perm (es ++ [e])
  refine ⟨_, sortE (es ++ [e]), e, rfl, ?_, ?_, rfl, rfl, rfl, ?_, ?_⟩
  · refine ⟨?_, ?_, ?_, ?_, ?_, ?_⟩
    · simp only
      exact sortAttrs_map (s := { s3 with list := (es ++ [e]).map (Entry.attr s3.base) }) (es ++ [e])
        (fun x hx => (hall x hx).keep (Nat.le_refl _) (fun _ _ => rfl))
    · intro x hx
      exact (hall x (hperm.mem_iff.mp hx)).keep (Nat.le_refl _) (fun _ _ => rfl)
    · apply sortE_sorted
      rw [List.pairwise_append]
      refine ⟨h2.sorted.imp (fun h => strcmp_lt_ne h), List.pairwise_singleton _ _, ?_⟩
      intro a ha b hb
      simp only [List.mem_singleton] at hb
      subst hb
      exact hnew a ha
    · rw [hperm.pairwise_iff (fun h => Or.symm h)]
      rw [List.pairwise_append]
      refine ⟨h2.disj, List.pairwise_singleton _ _, ?_⟩
      intro a ha b hb
      simp only [List.mem_singleton] at hb
      subst hb
      left
      exact (h2.ok a ha).inside
    · show s3.bufused ≤ s3.bufsize
      rw [hu3, hz3]; omega
    · show 128 ≤ s3.bufsize
      rw [hz3]; exact h2.size
  · exact hperm.mem_iff.mpr (by simp)
  · intro x
    rw [hperm.mem_iff]
    simp
  · show s3.dirty = s.dirty
    rw [hd3, h5]

/-! ## Changing the data of one entry -/

/-- Replace the value of the entry named `name`. -/
def setVal (es : List Entry) (name : CStr) (bs : List Byte) : List Entry :=
  es.map fun x => if x.name = name then { x with val := { x.val with bytes := bs } } else x

theorem AttrInv.update {m : Machine} {s : AttrSet} {es : List Entry} (h : AttrInv m s es) {e : Entry} (he : e ∈ es)
    (buf : Mem) (bs : List Byte) (hbs : bs.length = e.val.bytes.length)
    (hin : peek buf (s.base + e.off + e.name.length + 1) bs.length = bs)
    (hout : ∀ x, x < s.base + e.off + e.name.length + 1 ∨ s.base + e.off + e.name.length + 1 + bs.length ≤ x →
      buf x = s.buf x) :
    AttrInv m { s with buf := buf } (setVal es e.name bs) := by
  have huniq : ∀ x ∈ es, x.name = e.name → x = e := fun x hx hn => sortedE_unique h.sorted hx he hn
  have hname : ∀ x, (if x.name = e.name then ({ x with val := { x.val with bytes := bs } } : Entry) else x).name = x.name := by
    intro x; split <;> rfl
  have hoff : ∀ x, (if x.name = e.name then ({ x with val := { x.val with bytes := bs } } : Entry) else x).off = x.off := by
    intro x; split <;> rfl
  have hlen : ∀ x ∈ es, (if x.name = e.name then ({ x with val := { x.val with bytes := bs } } : Entry) else x).len = x.len := by
    intro x hx
    split
    · rename_i hn
      rw [huniq x hx hn]
      simp [Entry.len, hbs]
    · rfl
  refine ⟨?_, ?_, ?_, ?_, h.used, h.size⟩
  · show s.list = (setVal es e.name bs).map (Entry.attr s.base)
    rw [h.list]
    unfold setVal
    rw [List.map_map]
    apply List.map_congr_left
    intro x _
    simp only [Function.comp]
    split <;> rfl
  · intro y hy
    unfold setVal at hy
    obtain ⟨x, hx, rfl⟩ := List.mem_map.mp hy
    have hxo := h.ok x hx
    by_cases hn : x.name = e.name
    · rw [if_pos hn]
      have hxe := huniq x hx hn
      subst hxe
      refine ⟨hxo.nonul, ?_, ?_, hxo.norm, hxo.item, ?_, ?_⟩
      · show x.off + (x.name.length + 1 + bs.length) ≤ s.bufused
        rw [hbs]; exact hxo.inside
      · show peek buf (s.base + x.off) (x.name.length + 1 + bs.length) = x.name ++ 0 :: bs
        rw [peek_add]
        have e1 : peek buf (s.base + x.off) (x.name.length + 1) = x.name ++ [0] := by
          have hm := hxo.mem
          rw [show x.name ++ 0 :: x.val.bytes = (x.name ++ [0]) ++ x.val.bytes by simp] at hm
          have := (peek_prefix hm).1
          rw [List.length_append, List.length_singleton] at this
          rw [← this]
          apply peek_ext
          intro i hi
          rw [hout _ (by omega)]
        rw [e1]
        have e2 : s.base + (x.off : Int) + ((x.name.length + 1 : Nat) : Int) = s.base + x.off + x.name.length + 1 := by omega
        rw [e2, hin]
        simp
      · show (bs.length : Int) = _
        rw [hbs]; exact hxo.nbytes
      · show bs.length < _
        rw [hbs]; exact hxo.fits
    · rw [if_neg hn]
      refine hxo.keep (Nat.le_refl _) ?_
      intro i hi
      show buf (s.base + x.off + i) = _
      apply hout
      have hd : x.off + x.len ≤ e.off ∨ e.off + e.len ≤ x.off := by
        have hp := h.disj
        obtain ⟨a, ha, rfl⟩ := List.getElem_of_mem hx
        obtain ⟨b, hb, rfl⟩ := List.getElem_of_mem he
        have hp := List.pairwise_iff_getElem.mp h.disj
        rcases Nat.lt_trichotomy a b with hlt | heq | hlt
        · exact hp a b ha hb hlt
        · subst heq; exact absurd rfl hn
        · exact (hp b a hb ha hlt).symm
      unfold Entry.len at hd hi
      omega
  · unfold setVal SortedE
    rw [List.pairwise_map]
    refine h.sorted.imp ?_
    intro a b hab
    rw [hname, hname]
    exact hab
  · unfold setVal
    rw [List.pairwise_map]
    refine h.disj.imp_of_mem ?_
    intro a b ha hb hab
    rw [hoff, hoff, hlen a ha, hlen b hb]
    exact hab

theorem mem_setVal {es : List Entry} {name : CStr} {bs : List Byte} {x : Entry} :
    x ∈ setVal es name bs ↔ (x ∈ es ∧ x.name ≠ name) ∨
      ∃ e ∈ es, e.name = name ∧ x = { e with val := { e.val with bytes := bs } } := by
  unfold setVal
  rw [List.mem_map]
  constructor
  · rintro ⟨e, he, rfl⟩
    by_cases hn : e.name = name
    · rw [if_pos hn]; exact Or.inr ⟨e, he, hn, rfl⟩
    · rw [if_neg hn]; exact Or.inl ⟨he, hn⟩
  · rintro (⟨hx, hn⟩ | ⟨e, he, hn, rfl⟩)
    · exact ⟨x, hx, by rw [if_neg hn]⟩
    · exact ⟨e, he, by rw [if_pos hn]⟩

/-! ## Strings of elements -/

theorem peek_elems {m m' : Mem} {a a' : Int} {w n : Nat}
    (h : ∀ i, i < n → peek m (a + (i * w : Nat)) w = peek m' (a' + (i * w : Nat)) w) :
    peek m a (w * n) = peek m' a' (w * n) := by
  induction n with
  | zero => rfl
  | succ n ih =>
    rw [Nat.mul_succ, peek_add, peek_add, ih (fun i hi => h i (by omega))]
    congr 1
    have := h n (by omega)
    rw [Nat.mul_comm] at this
    exact this

theorem peek_drop_take (m : Mem) (a : Int) (N k w : Nat) (h : k + w ≤ N) :
    ((peek m a N).drop k).take w = peek m (a + k) w := by
  have : N = k + (w + (N - k - w)) := by omega
  rw [this, peek_add, peek_add]
  rw [List.drop_append_of_le_length (by rw [peek_length]; exact Nat.le_refl _)]
  rw [List.drop_of_length_le (by rw [peek_length]; exact Nat.le_refl _), List.nil_append]
  rw [List.take_append_of_le_length (by rw [peek_length]; exact Nat.le_refl _)]
  rw [List.take_of_length_le (by rw [peek_length]; exact Nat.le_refl _)]

theorem elemBytes_peek (m : Mem) (a : Int) (w n i : Nat) (h : i < n) :
    elemBytes w (peek m a (w * n)) i = peek m (a + (i * w : Nat)) w := by
  unfold elemBytes
  apply peek_drop_take
  have := Nat.mul_le_mul_right w (show i + 1 ≤ n by omega)
  rw [Nat.add_mul, Nat.mul_comm n w] at this
  omega

theorem convElem_same (m : Machine) (fo : FloatOps) (dt : CStr) (bs : List Byte) :
    convElem m fo dt dt bs = some bs := by
  unfold convElem
  simp [toNative_toNative]

theorem convertible_same (m : Machine) (fo : FloatOps) (dt : CStr) : convertible m fo dt dt = true := by
  unfold convertible
  simp

/-! ## `set` -/

theorem dropOld_spec {m : Machine} {s : AttrSet} {es : List Entry} (h : AttrInv m s es) (name : CStr) :
    ∃ es1, AttrInv m (dropOld s name) es1 ∧ findE es1 = (findE es).del name ∧
      (∀ e ∈ es1, e ∈ es ∧ e.name ≠ name) ∧ (∀ e ∈ es, e.name ≠ name → e ∈ es1) ∧
      ∃ l, dropOld s name = { s with list := l } := by
  obtain ⟨es1, a1, a2, a3, a4, a5, l, a6⟩ := removeAttr_spec h name
  unfold dropOld
  rcases lookup_find h name with ⟨c1, c2, c3⟩ | ⟨i, e, c1, _⟩
  · rw [c1]
    refine ⟨es, h, ?_, fun e he => ⟨he, c3 e he⟩, fun e he _ => he, s.list, rfl⟩
    funext x
    unfold AttrMap.del
    split
    · rename_i hx; subst hx; exact c2
    · rfl
  · rw [c1]
    exact ⟨es1, a1, a3, a4, a5, l, a6⟩

theorem setAttr_spec {env : Env} {s : AttrSet} {es : List Entry} (h : AttrInv env.m s es)
    (name dtype : CStr) (nmemb : Nat) (sm : Mem) (src : Int) (h0 : (0 : Byte) ∉ name)
    (hi : 0 < itemsize env.m dtype) (hfit : itemsize env.m dtype * nmemb < 2147483648)
    (hnl : name.length < 9223372036854775808) (hb : hasBlank name = false) :
    ∃ s' es' sm', setAttr env s name src dtype nmemb sm = some (0, s', sm') ∧ AttrInv env.m s' es' ∧
      findE es' = (findE es).put name
        ⟨dtypeNormalize env.m dtype, nmemb, peek sm src (widthOf env.m dtype * nmemb)⟩ ∧ s'.dirty = true ∧
      (foreign env.m (dtypeNormalize env.m dtype) = false → sm' = sm) ∧
      (∀ x, x < src ∨ src + (widthOf env.m dtype * nmemb : Nat) ≤ x → sm' x = sm x) ∧
      (∀ i, i < nmemb → peek sm' (src + (i * widthOf env.m dtype : Nat)) (widthOf env.m dtype) =
        toNative env.m (dtypeNormalize env.m dtype)
          (peek sm (src + (i * widthOf env.m dtype : Nat)) (widthOf env.m dtype))) := by
  obtain ⟨w, hw⟩ : ∃ w : Nat, itemsize env.m dtype = w := ⟨_, (Int.toNat_of_nonneg (by omega)).symm⟩
  have hwidth : widthOf env.m dtype = w := by unfold widthOf; rw [hw]; rfl
  rw [hwidth]
  have hw0 : 0 < w := by omega
  have hwn : w * nmemb < 2147483648 := by
    rw [hw] at hfit
    have : ((w * nmemb : Nat) : Int) < 2147483648 := by rw [Int.natCast_mul]; exact hfit
    omega
  have hnw : nmemb ≤ w * nmemb := by
    calc nmemb = 1 * nmemb := by omega
    _ ≤ w * nmemb := Nat.mul_le_mul_right _ hw0
  unfold setAttr
  simp only
  rw [hb]
  simp only [Bool.false_eq_true, if_false]
  have hd : AttrInv env.m { s with dirty := true } es :=
    ⟨h.list, fun e he => (h.ok e he).keep (Nat.le_refl _) (fun _ _ => rfl), h.sorted, h.disj, h.used, h.size⟩
  obtain ⟨es1, hs1inv, hs1find, hs1mem, hs1mem', l1, hs1eq⟩ := dropOld_spec hd name
  generalize dropOld { s with dirty := true } name = s1 at *
  obtain ⟨s2, es2, e, ha, hinv2, he2, hen, hedt, henm, hmem2, hdirty⟩ :=
    addAttr_spec hs1inv name dtype nmemb h0 hi hfit hnl (fun e he => (hs1mem e he).2)
  rw [ha]
  simp only
  rcases lookup_find hinv2 name with ⟨_, _, c3⟩ | ⟨i, e', c1, c2, c3, c4, c5, c6⟩
  · exact absurd hen (c3 e he2)
  · have hee : e' = e := sortedE_unique hinv2.sorted c3 he2 (by rw [c4, hen])
    subst hee
    rw [c1]
    simp only
    rw [c5]
    simp only
    have hnm : (e'.attr s2.base).nmemb = (nmemb : Int) := by simp [Entry.attr, henm]
    have hdt : (e'.attr s2.base).dtype = dtypeNormalize env.m dtype := hedt
    rw [hnm, if_neg (by simp), if_neg (by omega), hdt]
    simp only [Int.toNat_natCast]
    have hlen : e'.val.bytes.length = w * nmemb := by
      have := (hinv2.ok e' he2).nbytes
      rw [hedt, itemsize_normalize, hw, henm] at this
      rw [← Int.natCast_mul] at this
      omega
    obtain ⟨dm', sm', k1, k2, k3, k4, k5, k6⟩ := convertSimple_spec env.m env.fo (e'.attr s2.base).data src
      (dtypeNormalize env.m dtype) dtype nmemb w w s2.buf sm (fun i => peek sm (src + (i * w : Nat)) w)
      (by rw [itemsize_normalize, hw]) hw hw0 (by omega) (by rw [Nat.mul_comm]; omega)
      (by rw [normalize_idem]; exact convertible_same _ _ _)
      (by intro i _; rw [normalize_idem]; exact convElem_same _ _ _ _)
    rw [k1]
    have hdata : peek dm' (e'.attr s2.base).data (w * nmemb) = peek sm src (w * nmemb) :=
      peek_elems (fun i hi => k3 i hi)
    have hupd := hinv2.update he2 dm' (peek sm src (w * nmemb)) (by rw [peek_length, hlen])
      (by
        rw [peek_length]
        exact hdata)
      (by
        intro x hx
        rw [peek_length] at hx
        exact k2 x hx)
    refine ⟨_, _, sm', rfl, hupd, ?_, ?_, k4, k5, k6⟩
    · funext x
      apply Option.ext
      intro v
      rw [findE_iff hupd.sorted]
      unfold AttrMap.put
      constructor
      · rintro ⟨y, hy, rfl, rfl⟩
        rw [mem_setVal] at hy
        rcases hy with ⟨hy, hn⟩ | ⟨z, hz, hn, rfl⟩
        · rw [hen] at hn
          rw [if_neg hn]
          rcases (hmem2 y).mp hy with hy1 | rfl
          · exact findE_mem h.sorted (hs1mem y hy1).1
          · exact absurd hen hn
        · have hze := sortedE_unique hinv2.sorted hz he2 hn
          subst hze
          rw [if_pos hen]
          simp only [Option.some.injEq]
          rw [← hedt, ← henm]
      · intro hx
        split at hx
        · rename_i hxn
          injection hx with hx
          refine ⟨{ e' with val := { e'.val with bytes := peek sm src (w * nmemb) } }, ?_, ?_, ?_⟩
          · rw [mem_setVal]; exact Or.inr ⟨e', he2, rfl, rfl⟩
          · rw [hxn]; exact hen
          · rw [← hx, ← hedt, ← henm]
        · rename_i hxn
          obtain ⟨y, hy, hyn, hyv⟩ := findE_some hx
          refine ⟨y, ?_, hyn, hyv⟩
          rw [mem_setVal]
          left
          refine ⟨(hmem2 y).mpr (Or.inl (hs1mem' y hy (by rw [hyn]; exact hxn))), ?_⟩
          rw [hen, hyn]; exact hxn
    · show s2.dirty = true
      rw [hdirty, hs1eq]

/-! ## `get` -/

theorem getAttr_spec {env : Env} {s : AttrSet} {es : List Entry} (h : AttrInv env.m s es)
    (name dtype : CStr) (nmemb : Nat) (dm : Mem) (dst : Int) (hi : 0 < itemsize env.m dtype)
    (hfit : itemsize env.m dtype * nmemb < 2147483648)
    (hlegal : ∀ v, findE es name = some v → v.nmemb = nmemb →
      (foreign env.m v.dtype = false ∨ widthOf env.m v.dtype = 1) ∧
      (convertible env.m env.fo (dtypeNormalize env.m dtype) v.dtype = true →
        ∀ i, i < nmemb → (convElem env.m env.fo (dtypeNormalize env.m dtype) v.dtype
          (elemBytes (widthOf env.m v.dtype) v.bytes i)).isSome = true)) :
    ∃ rc dm', getAttr env s name dst dtype nmemb dm = some (rc, s, dm') ∧
      AnsOk env.m env.fo (findE es) (.get name dtype nmemb dm dst) ⟨rc, dm', []⟩ := by
  obtain ⟨w, hw⟩ : ∃ w : Nat, itemsize env.m dtype = w := ⟨_, (Int.toNat_of_nonneg (by omega)).symm⟩
  have hwidth : widthOf env.m dtype = w := by unfold widthOf; rw [hw]; rfl
  have hw0 : 0 < w := by omega
  have hwn : w * nmemb < 2147483648 := by
    rw [hw] at hfit
    have : ((w * nmemb : Nat) : Int) < 2147483648 := by rw [Int.natCast_mul]; exact hfit
    omega
  have hnw : nmemb ≤ w * nmemb := by
    calc nmemb = 1 * nmemb := by omega
    _ ≤ w * nmemb := Nat.mul_le_mul_right _ hw0
  unfold getAttr
  rcases lookup_find h name with ⟨c1, c2, _⟩ | ⟨i, e, c1, c2, c3, c4, c5, c6⟩
  · rw [c1]
    refine ⟨-1, dm, rfl, ?_⟩
    unfold AnsOk
    dsimp only
    rw [c2]
    exact ⟨rfl, rfl⟩
  · rw [c1]
    simp only
    rw [c5]
    simp only
    have hnm : (e.attr s.base).nmemb = (e.val.nmemb : Int) := rfl
    rw [hnm]
    by_cases hne : e.val.nmemb = nmemb
    · rw [if_neg (by omega), if_neg (by omega)]
      obtain ⟨hf, hc⟩ := hlegal e.val c6 hne
      have heo := h.ok e c3
      obtain ⟨sw, hsw⟩ : ∃ w : Nat, itemsize env.m e.val.dtype = w :=
        ⟨_, (Int.toNat_of_nonneg (by have := heo.item; omega)).symm⟩
      have hswid : widthOf env.m e.val.dtype = sw := by unfold widthOf; rw [hsw]; rfl
      rw [hswid] at hf hc
      have hlen : e.val.bytes.length = sw * nmemb := by
        have := heo.nbytes
        rw [hsw, hne, ← Int.natCast_mul] at this
        omega
      have hbytes : peek s.buf (e.attr s.base).data (sw * nmemb) = e.val.bytes := by
        rw [← hlen]; exact heo.data
      have hdt : (e.attr s.base).dtype = e.val.dtype := rfl
      rw [hdt, hne]
      simp only [Int.toNat_natCast]
      by_cases hsup : convertible env.m env.fo (dtypeNormalize env.m dtype) e.val.dtype = true
      · have hc := hc hsup
        let out : Nat → List Byte := fun i =>
          ((convElem env.m env.fo (dtypeNormalize env.m dtype) e.val.dtype (elemBytes sw e.val.bytes i))).getD []
        have hout : ∀ i, i < nmemb → convElem env.m env.fo (dtypeNormalize env.m dtype) e.val.dtype
            (elemBytes sw e.val.bytes i) = some (out i) := by
          intro i hi
          obtain ⟨b, hb⟩ := Option.isSome_iff_exists.mp (hc i hi)
          simp [out, hb]
        obtain ⟨dm', sm', k1, k2, k3, k4, k5, k6⟩ := convertSimple_spec env.m env.fo dst (e.attr s.base).data
          dtype e.val.dtype nmemb w sw dm s.buf out hw hsw hw0 (by omega) (by rw [Nat.mul_comm]; omega)
          (by rw [heo.norm]; exact hsup)
          (by
            intro i hi
            rw [heo.norm, ← elemBytes_peek _ _ _ nmemb i hi, hbytes]
            exact hout i hi)
        rw [k1]
        have hsm : sm' = s.buf := by
          rcases hf with hf | hf
          · exact k4 (by rw [heo.norm]; exact hf)
          · subst hf
            funext x
            by_cases hx : x < (e.attr s.base).data ∨ (e.attr s.base).data + (1 * nmemb : Nat) ≤ x
            · exact k5 x hx
            · have hlt : (x - (e.attr s.base).data).toNat < nmemb := by omega
              have := k6 _ hlt
              rw [Nat.mul_one] at this
              have e1 : (e.attr s.base).data + ((x - (e.attr s.base).data).toNat : Int) = x := by omega
              rw [e1] at this
              unfold toNative at this
              have hr : ∀ y : Byte, [y].reverse = [y] := fun _ => rfl
              simp only [peek, hr, ite_self] at this
              simpa using this
        subst hsm
        refine ⟨0, dm', rfl, ?_⟩
        unfold AnsOk
        dsimp only
        rw [c6]
        simp only
        rw [if_pos ⟨hne, hsup⟩, hwidth, hswid]
        refine ⟨trivial, k2, ?_⟩
        intro i hi
        rw [k3 i hi]
        exact hout i hi
      · have hsup' : convertible env.m env.fo (dtypeNormalize env.m dtype) e.val.dtype = false := by
          simpa using hsup
        rw [convertSimple_unsupported env.m env.fo dst _ dtype e.val.dtype nmemb sw dm s.buf hsw (by omega)
          (by rw [heo.norm]; exact hf) (by rw [heo.norm]; exact hsup')]
        refine ⟨-1, dm, rfl, ?_⟩
        unfold AnsOk
        dsimp only
        rw [c6]
        simp only
        rw [if_neg (by rw [hsup']; simp)]
        exact ⟨trivial, trivial⟩
    · rw [if_pos (by omega)]
      refine ⟨-1, dm, rfl, ?_⟩
      unfold AnsOk
      dsimp only
      rw [c6]
      simp only
      rw [if_neg (by intro hc; exact hne hc.1)]
      exact ⟨trivial, trivial⟩

end Verif
