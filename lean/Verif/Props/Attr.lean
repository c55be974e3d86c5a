import Verif.Proof.AttrSet
import Verif.Props.Example
/-!
# C27, C28, C29, C32: attributes in memory
-/

set_option autoImplicit false

namespace Verif

open Spec

theorem hasBlank_iff (s : CStr) : hasBlank s = true ↔ (32 : Byte) ∈ s ∨ (9 : Byte) ∈ s ∨ (10 : Byte) ∈ s := by
  unfold hasBlank
  rw [List.any_eq_true]
  constructor
  · rintro ⟨c, hc, h⟩
    simp only [Bool.or_eq_true, beq_iff_eq] at h
    rcases h with (rfl | rfl) | rfl
    · exact Or.inl hc
    · exact Or.inr (Or.inl hc)
    · exact Or.inr (Or.inr hc)
  · rintro (h | h | h)
    · exact ⟨_, h, by decide⟩
    · exact ⟨_, h, by decide⟩
    · exact ⟨_, h, by decide⟩

/-- One operation. -/
theorem attrStep_spec {env : Env} {s : AttrSet} {es : List Entry} (h : AttrInv env.m s es) (op : AttrOp)
    (hl : LegalOp env.m env.fo (findE es) op) :
    ∃ ans s' es', attrStep env s op = some (ans, s') ∧ AttrInv env.m s' es' ∧
      findE es' = attrNext env.m (findE es) op ∧ AnsOk env.m env.fo (findE es) op ans := by
  cases op with
  | set name dtype nmemb mem buf =>
    obtain ⟨h0, h1, h2, h3⟩ := hl
    simp only [attrStep]
    by_cases hb : hasBlank name = true
    · refine ⟨⟨-1, mem, []⟩, _, es, ?_, h.dirty true, ?_, ?_⟩
      · unfold setAttr
        simp only
        rw [if_pos hb]
        rfl
      · simp [attrNext, hb]
      · simp only [AnsOk]
        rw [if_pos hb]
        exact ⟨rfl, fun _ => trivial, fun _ _ => trivial⟩
    · have hb' : hasBlank name = false := by simpa using hb
      obtain ⟨s', es', sm', k1, k2, k3, _, k4, k5, _⟩ := setAttr_spec h name dtype nmemb mem buf h0 h2 h3 h1 hb'
      rw [k1]
      refine ⟨_, s', es', rfl, k2, ?_, ?_⟩
      · rw [k3]; simp [attrNext, hb']
      · simp only [AnsOk]
        rw [hb']
        exact ⟨rfl, k4, k5⟩
  | remove name =>
    obtain ⟨es', k1, k2, k3, _⟩ := removeAttr_spec h name
    exact ⟨_, _, es', rfl, k1, k3, k2⟩
  | get name dtype nmemb mem buf =>
    obtain ⟨h0, h1, h2, h3⟩ := hl
    obtain ⟨rc, dm', k1, k2⟩ := getAttr_spec h name dtype nmemb mem buf h1 h2 h3
    simp only [attrStep]
    rw [k1]
    exact ⟨_, s, es, rfl, h, rfl, k2⟩
  | list =>
    refine ⟨_, s, es, rfl, h, rfl, ?_⟩
    simp only [AnsOk, listAttrs]
    have hnames : s.list.map (fun a => (s.nameOf a, a.dtype, a.nmemb)) =
        es.map (fun e => (e.name, e.val.dtype, (e.val.nmemb : Int))) := by
      rw [h.list, List.map_map]
      apply List.map_congr_left
      intro e he
      simp only [Function.comp, (h.ok e he).nameOf]
      rfl
    rw [hnames]
    refine ⟨?_, ?_⟩
    · rw [List.pairwise_map]
      exact h.sorted
    · intro name dtype nmemb
      rw [List.mem_map]
      constructor
      · rintro ⟨e, he, heq⟩
        simp only [Prod.mk.injEq] at heq
        obtain ⟨rfl, rfl, rfl⟩ := heq
        exact ⟨e.val, findE_mem h.sorted he, rfl, rfl⟩
      · rintro ⟨v, hv, rfl, rfl⟩
        obtain ⟨e, he, hn, hv'⟩ := findE_some hv
        exact ⟨e, he, by rw [hn, hv']⟩

theorem attrRun_spec {env : Env} (ops : List AttrOp) : ∀ {s : AttrSet} {es : List Entry}, AttrInv env.m s es →
    LegalOps env.m env.fo (findE es) ops →
    ∃ anses s' es', attrRun env s ops = some (anses, s') ∧ AttrInv env.m s' es' ∧
      findE es' = attrAfter env.m (findE es) ops ∧ AnsesOk env.m env.fo (findE es) ops anses := by
  induction ops with
  | nil =>
    intro s es h _
    exact ⟨[], s, es, rfl, h, rfl, trivial⟩
  | cons op ops ih =>
    intro s es h hl
    obtain ⟨h1, h2⟩ := hl
    obtain ⟨ans, s1, es1, k1, k2, k3, k4⟩ := attrStep_spec h op h1
    rw [← k3] at h2
    obtain ⟨anses, s', es', j1, j2, j3, j4⟩ := ih k2 h2
    refine ⟨ans :: anses, s', es', ?_, j2, ?_, ?_⟩
    · simp only [attrRun]
      rw [k1]
      simp only
      rw [j1]
      rfl
    · rw [j3, k3]; rfl
    · refine ⟨k4, ?_⟩
      rw [← k3]
      exact j4

theorem findE_nil : findE [] = AttrMap.empty := rfl

/-- **C27** (partial: attributes stored in the other byte order must not be read, see
`C27_foreign`). For every history of set, remove, get and list operations on a fresh attribute set,
of any length and with any sizes: the history runs without undefined behaviour, every answer is the
one of a finite map from names to values, and at the end the set holds exactly that map. -/
theorem C27_finite_map_partial (env : Env) (ops : List AttrOp)
    (hl : LegalOps env.m env.fo AttrMap.empty ops) :
    ∃ anses s, attrRun env (attrsetCreate env) ops = some (anses, s) ∧
      AnsesOk env.m env.fo AttrMap.empty ops anses ∧
      attrView env.m s = attrAfter env.m AttrMap.empty ops := by
  obtain ⟨anses, s, es, h1, h2, h3, h4⟩ := attrRun_spec ops (attrsetCreate_inv env) (by rw [findE_nil]; exact hl)
  rw [findE_nil] at h3 h4
  exact ⟨anses, s, h1, h4, by rw [h2.view, h3]⟩

theorem AttrInv.safe {m : Machine} {s : AttrSet} {es : List Entry} (h : AttrInv m s es) : AttrSafe m s := by
  have hreg : ∀ e ∈ es, attrRegion m (e.attr s.base) = (s.base + e.off, s.base + e.off + (e.len : Nat)) := by
    intro e he
    unfold attrRegion Entry.attr Entry.len
    have := (h.ok e he).nbytes
    simp only [Prod.mk.injEq, true_and]
    omega
  refine ⟨?_, ?_, ?_, ?_⟩
  · intro a ha
    rw [h.list] at ha
    obtain ⟨e, he, rfl⟩ := List.mem_map.mp ha
    rw [hreg e he]
    have := (h.ok e he).inside
    have := h.used
    simp only
    omega
  · intro a ha
    rw [h.list] at ha
    obtain ⟨e, he, rfl⟩ := List.mem_map.mp ha
    rw [(h.ok e he).nameOf]
    refine ⟨by simp only [Entry.attr]; omega, ?_⟩
    have hm := (h.ok e he).mem
    have hlt : e.name.length < (peek s.buf (s.base + e.off) e.len).length := by
      rw [peek_length]; unfold Entry.len; omega
    have h1 := peek_getElem s.buf (s.base + e.off) e.len e.name.length hlt
    simp only [Entry.attr]
    rw [← h1]
    simp only [hm]
    simp
  · intro a ha
    rw [h.list] at ha
    obtain ⟨e, he, rfl⟩ := List.mem_map.mp ha
    rw [hreg e he]
    simp only [Entry.attr, Entry.len]
    omega
  · rw [h.list, List.pairwise_map]
    refine h.disj.imp_of_mem ?_
    intro a b ha hb hab
    rw [hreg a ha, hreg b hb]
    simp only
    omega

/-- **C28.** After every legal history the storage is memory safe, whatever addresses `realloc`
returned: all names and values lie inside the allocated buffer and do not overlap. (Every prefix of a
history is a history, so this holds at all times.) -/
theorem C28_memory_safe (env : Env) (ops : List AttrOp)
    (hl : LegalOps env.m env.fo AttrMap.empty ops) :
    ∃ anses s, attrRun env (attrsetCreate env) ops = some (anses, s) ∧ AttrSafe env.m s := by
  obtain ⟨anses, s, es, h1, h2, _, _⟩ := attrRun_spec ops (attrsetCreate_inv env) (by rw [findE_nil]; exact hl)
  exact ⟨anses, s, h1, h2.safe⟩

/-- **C29.** A name with a space, tab or newline is refused: return code -1, caller's memory and all
attributes as before. -/
theorem C29_blank_names (env : Env) (s : AttrSet) (name dtype : CStr) (nmemb : Int) (src : Int) (sm : Mem)
    (h : (32 : Byte) ∈ name ∨ (9 : Byte) ∈ name ∨ (10 : Byte) ∈ name) :
    ∃ s', setAttr env s name src dtype nmemb sm = some (-1, s', sm) ∧ attrView env.m s' = attrView env.m s ∧
      listAttrs s' = listAttrs s ∧ s'.buf = s.buf := by
  refine ⟨{ s with dirty := true }, ?_, rfl, rfl, rfl⟩
  unfold setAttr
  simp only
  rw [if_pos ((hasBlank_iff name).mpr h)]

/-- **C32** (partial: attributes stored in machine byte order or with one-byte elements). After any
legal history, reading an attribute leaves the attribute set exactly as it was, and reading it twice
gives the same answer twice. -/
theorem C32_get_keeps_partial (env : Env) (ops : List AttrOp) (name dtype : CStr) (nmemb : Nat) (mem : Mem)
    (buf : Int) (hl : LegalOps env.m env.fo AttrMap.empty ops)
    (hg : LegalOp env.m env.fo (attrAfter env.m AttrMap.empty ops) (.get name dtype nmemb mem buf)) :
    ∃ anses s rc mem', attrRun env (attrsetCreate env) ops = some (anses, s) ∧
      getAttr env s name buf dtype nmemb mem = some (rc, s, mem') ∧
      (∀ mem2, ∃ mem2', getAttr env s name buf dtype nmemb mem2 =
        some (rc, s, mem2') ∧ (rc = 0 → peek mem2' buf (widthOf env.m dtype * nmemb) =
          peek mem' buf (widthOf env.m dtype * nmemb))) := by
  obtain ⟨anses, s, es, h1, h2, h3, _⟩ := attrRun_spec ops (attrsetCreate_inv env) (by rw [findE_nil]; exact hl)
  rw [findE_nil] at h3
  rw [← h3] at hg
  obtain ⟨g0, g1, g2, g3⟩ := hg
  obtain ⟨rc, dm', k1, k2⟩ := getAttr_spec h2 name dtype nmemb mem buf g1 g2 g3
  refine ⟨anses, s, rc, dm', h1, k1, ?_⟩
  intro mem2
  obtain ⟨rc2, dm2, j1, j2⟩ := getAttr_spec h2 name dtype nmemb mem2 buf g1 g2 g3
  have hrc : rc2 = rc := by
    simp only [AnsOk] at k2 j2
    cases hv : findE es name with
    | none => rw [hv] at k2 j2; rw [k2.1, j2.1]
    | some v =>
      rw [hv] at k2 j2
      simp only at k2 j2
      split at k2
      · rename_i hc
        rw [if_pos hc] at j2
        rw [k2.1, j2.1]
      · rename_i hc
        rw [if_neg hc] at j2
        rw [k2.1, j2.1]
  subst hrc
  refine ⟨dm2, j1, ?_⟩
  intro hz
  simp only [AnsOk] at k2 j2
  cases hv : findE es name with
  | none => rw [hv] at k2; rw [hz] at k2; exact absurd k2.1 (by decide)
  | some v =>
    rw [hv] at k2 j2
    simp only at k2 j2
    split at k2
    · rename_i hc
      rw [if_pos hc] at j2
      apply peek_elems
      intro i hi
      have a1 := k2.2.2 i hi
      have a2 := j2.2.2 i hi
      rw [a1] at a2
      injection a2 with a2
      exact a2.symm
    · rw [hz] at k2; exact absurd k2.1 (by decide)

/-- **C22** for attributes: setting an attribute leaves the caller's data as it was when it is in
machine byte order. -/
theorem C22_set_attr_partial (env : Env) (ops : List AttrOp) (name dtype : CStr) (nmemb : Nat) (mem : Mem)
    (buf : Int) (hl : LegalOps env.m env.fo AttrMap.empty (ops ++ [.set name dtype nmemb mem buf]))
    (hf : foreign env.m (dtypeNormalize env.m dtype) = false) :
    ∃ anses s rc s', attrRun env (attrsetCreate env) ops = some (anses, s) ∧
      setAttr env s name buf dtype nmemb mem = some (rc, s', mem) := by
  have hsplit : ∀ (l : List AttrOp) (M : AttrMap), LegalOps env.m env.fo M (l ++ [.set name dtype nmemb mem buf]) →
      LegalOps env.m env.fo M l ∧ LegalOp env.m env.fo (attrAfter env.m M l) (.set name dtype nmemb mem buf) := by
    intro l
    induction l with
    | nil => intro M h; exact ⟨trivial, h.1⟩
    | cons op l ih => intro M h; exact ⟨⟨h.1, (ih _ h.2).1⟩, (ih _ h.2).2⟩
  obtain ⟨hl1, hl2⟩ := hsplit ops _ hl
  obtain ⟨anses, s, es, h1, h2, h3, _⟩ := attrRun_spec ops (attrsetCreate_inv env) (by rw [findE_nil]; exact hl1)
  rw [findE_nil] at h3
  rw [← h3] at hl2
  obtain ⟨g0, g1, g2, g3⟩ := hl2
  by_cases hb : hasBlank name = true
  · obtain ⟨s', k, _⟩ := C29_blank_names env s name dtype nmemb buf mem ((hasBlank_iff name).mp hb)
    exact ⟨anses, s, -1, s', h1, k⟩
  · obtain ⟨s', es', sm', k1, _, _, _, k4, _⟩ := setAttr_spec h2 name dtype nmemb mem buf g0 g2 g3 g1 (by simpa using hb)
    rw [k4 hf] at k1
    exact ⟨anses, s, 0, s', h1, k1⟩

/-! ## A concrete history -/

/-- Set two attributes, overwrite one, read it as `i8`, refuse a blank name, remove one, list. -/
def exAttrOps : List AttrOp :=
  [.set b!"b" b!"i4" 2 (fun x => UInt8.ofNat x.toNat) 100,
   .set b!"a" b!">f8" 1 (fun _ => 3) 0,
   .set b!"b" b!"i4" 1 (fun _ => 5) 50,
   .get b!"b" b!"i8" 1 (fun _ => 0) 10,
   .set b!"x y" b!"i4" 1 (fun _ => 0) 0,
   .remove b!"a",
   .list]

theorem exAttrOps_legal : LegalOps exEnv.m exEnv.fo AttrMap.empty exAttrOps := by
  refine ⟨⟨by decide, by decide, by decide, by decide⟩, ⟨by decide, by decide, by decide, by decide⟩,
    ⟨by decide, by decide, by decide, by decide⟩, ⟨by decide, by decide, by decide, ?_⟩,
    ⟨by decide, by decide, by decide, by decide⟩, (by decide : (0 : Byte) ∉ b!"a"), trivial, trivial⟩
  intro v hv _
  have : v = ⟨b!"<i4", 1, [5, 5, 5, 5]⟩ := by
    have h : attrAfter exEnv.m AttrMap.empty (exAttrOps.take 3) b!"b" = some ⟨b!"<i4", 1, [5, 5, 5, 5]⟩ := by
      decide +kernel
    have h2 : some v = attrAfter exEnv.m AttrMap.empty (exAttrOps.take 3) b!"b" := hv.symm
    rw [h] at h2
    injection h2
  subst this
  refine ⟨Or.inl (by decide), ?_⟩
  intro _ i hi
  have : i = 0 := by omega
  subst this
  decide +kernel

example : ((attrRun exEnv (attrsetCreate exEnv) exAttrOps).map fun r => r.1.map (·.rc)) =
    some [0, 0, 0, 0, -1, 0, 0] := by
  decide +kernel

example : ((attrRun exEnv (attrsetCreate exEnv) exAttrOps).map fun r => r.1.flatMap (·.names.map (·.1))) =
    some [b!"b"] := by
  decide +kernel

/-- The values of the concrete history: `get` converted 0x05050505 to eight bytes. -/
example : ((attrRun exEnv (attrsetCreate exEnv) exAttrOps).bind fun r =>
    (r.1[3]?).map fun a => peek a.mem 9 10) = some [0, 5, 5, 5, 5, 0, 0, 0, 0, 0] := by
  decide +kernel

example : ∃ anses s, attrRun exEnv (attrsetCreate exEnv) exAttrOps = some (anses, s) ∧ AttrSafe exEnv.m s :=
  C28_memory_safe exEnv exAttrOps exAttrOps_legal

/-! ## Where it fails -/

/-- One attribute in the other byte order. -/
def exForeignOps : List AttrOp := [.set b!"a" b!">i4" 1 (fun x => UInt8.ofNat x.toNat) 1]

/-- Values read by two `get`s of the same attribute, one after the other, and the bytes stored after
them. -/
def exTwoGets : Option (List Byte × List Byte × Option (List Byte)) := do
  let (_, s) ← attrRun exEnv (attrsetCreate exEnv) exForeignOps
  let (_, s, m1) ← getAttr exEnv s b!"a" 0 b!">i4" 1 (fun _ => 0)
  let v := (attrView exEnv.m s b!"a").map (·.bytes)
  let (_, _, m2) ← getAttr exEnv s b!"a" 0 b!">i4" 1 (fun _ => 0)
  pure (peek m1 0 4, peek m2 0 4, v)

/-- **C32 is false** for attributes in the other byte order: the first `get` returns what was set, but
swaps the stored bytes; the second returns them reversed. -/
theorem C32_changes : exTwoGets = some ([1, 2, 3, 4], [4, 3, 2, 1], some [4, 3, 2, 1]) := by decide +kernel

/-- **C27 is false** for the same reason: after set and get the map no longer holds the value that was
set. -/
theorem C27_foreign : ∃ anses s,
    attrRun exEnv (attrsetCreate exEnv) (exForeignOps ++ [.get b!"a" b!">i4" 1 (fun _ => 0) 0]) = some (anses, s) ∧
    (attrView exEnv.m s b!"a").map (·.bytes) = some [4, 3, 2, 1] ∧
    (attrAfter exEnv.m AttrMap.empty (exForeignOps ++ [.get b!"a" b!">i4" 1 (fun _ => 0) 0]) b!"a").map (·.bytes) =
      some [1, 2, 3, 4] := by
  match h : attrRun exEnv (attrsetCreate exEnv) (exForeignOps ++ [.get b!"a" b!">i4" 1 (fun _ => 0) 0]) with
  | none =>
    have : (attrRun exEnv (attrsetCreate exEnv) (exForeignOps ++ [.get b!"a" b!">i4" 1 (fun _ => 0) 0])).isSome = true := by
      decide +kernel
    rw [h] at this; exact absurd this (by simp)
  | some (anses, s) =>
    refine ⟨anses, s, h, ?_, by decide +kernel⟩
    have : ((attrRun exEnv (attrsetCreate exEnv) (exForeignOps ++ [.get b!"a" b!">i4" 1 (fun _ => 0) 0])).bind
        fun r => (attrView exEnv.m r.2 b!"a").map (·.bytes)) = some [4, 3, 2, 1] := by decide +kernel
    rw [h] at this
    exact this

end Verif
