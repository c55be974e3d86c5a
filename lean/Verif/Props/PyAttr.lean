import Verif.Proof.PyAttr
import Verif.Props.Attr
import Verif.Props.AttrDisk
/-!
# C83: in Python the attributes of a block are a dictionary
-/

set_option autoImplicit false

namespace Verif

open Spec

theorem findE_ok {m : Machine} {s : AttrSet} {es : List Entry} (h : AttrInv m s es) {name : CStr} {v : AttrVal}
    (hv : findE es name = some v) : dtypeNormalize m v.dtype = v.dtype ∧ 0 < itemsize m v.dtype ∧
      v.bytes.length = widthOf m v.dtype * v.nmemb ∧ itemsize m v.dtype * v.nmemb < 2147483648 := by
  obtain ⟨e, he, _, rfl⟩ := findE_some hv
  have ho := h.ok e he
  have hw : ((itemsize m e.val.dtype).toNat : Int) = itemsize m e.val.dtype :=
    Int.toNat_of_nonneg (by have := ho.item; omega)
  have hb : e.val.bytes.length = widthOf m e.val.dtype * e.val.nmemb := by
    have := ho.nbytes
    rw [← hw, ← Int.natCast_mul] at this
    unfold widthOf
    omega
  refine ⟨ho.norm, ho.item, hb, ?_⟩
  rw [← ho.nbytes]
  have := ho.fits
  omega

/-- Reading an attribute with its own type and length gives its bytes. -/
theorem getAttr_own {env : Env} {s : AttrSet} {es : List Entry} (h : AttrInv env.m s es) {name : CStr} {v : AttrVal}
    (hv : findE es name = some v) (ho : foreign env.m v.dtype = false ∨ widthOf env.m v.dtype = 1) (dst : Int) (dm : Mem) :
    ∃ dm', getAttr env s name dst v.dtype v.nmemb dm = some (0, s, dm') ∧
      peek dm' dst (widthOf env.m v.dtype * v.nmemb) = v.bytes := by
  obtain ⟨h1, h2, h3, h4⟩ := findE_ok h hv
  obtain ⟨rc, dm', k1, k2⟩ := getAttr_spec h name v.dtype v.nmemb dm dst h2 h4 (by
    intro v' hv' hn
    rw [hv] at hv'
    injection hv' with hv'
    subst hv'
    refine ⟨ho, fun _ i _ => ?_⟩
    rw [h1, convElem_same]
    rfl)
  unfold AnsOk at k2
  dsimp only at k2
  rw [hv] at k2
  dsimp only at k2
  rw [if_pos ⟨rfl, by rw [h1]; exact convertible_same _ _ _⟩] at k2
  obtain ⟨rfl, _, k4⟩ := k2
  refine ⟨dm', k1, ?_⟩
  have e : peek (poke dm' dst v.bytes) dst (widthOf env.m v.dtype * v.nmemb) = v.bytes := by
    rw [← h3]; exact peek_poke_same _ _ _
  rw [← e]
  apply peek_elems
  intro i hi
  have := k4 i hi
  rw [h1, convElem_same] at this
  injection this with this
  rw [← this, ← elemBytes_peek _ _ _ _ _ hi, e]

/-- One operation. -/
theorem dictStep_spec {env : Env} {s : AttrSet} {es : List Entry} (h : AttrInv env.m s es) (ho : InOrder env.m (findE es))
    (op : DictOp) (hl : DictLegal env.m op) :
    ∃ ans s' es', dictStep env s op = some (ans, s') ∧ AttrInv env.m s' es' ∧ InOrder env.m (findE es') ∧
      pyDict env.m (findE es') = dictNext env.m (pyDict env.m (findE es)) op ∧
      DictOk (pyDict env.m (findE es)) op ans := by
  cases op with
  | set name v buf =>
    obtain ⟨h0, h1, h2⟩ := hl
    obtain ⟨p1, p2, p3, p4, p5⟩ := put_ok h2
    simp only [dictStep, pyAttrSet, dictNext, DictOk]
    by_cases hb : hasBlank name = true
    · refine ⟨_, { s with dirty := true }, es, ?_, h.dirty true, ho, ?_, rfl⟩
      · unfold setAttr
        simp only
        rw [if_pos hb]
        simp only [Option.map_some, hb]
        rfl
      · rw [if_pos hb]
    · have hb' : hasBlank name = false := by simpa using hb
      obtain ⟨s', es', sm', k1, k2, k3, _⟩ := setAttr_spec h name v.buffer.1 v.buffer.2.1
        (poke env.junk buf v.buffer.2.2) buf h0 p1 p2 h1 hb'
      rw [← p3, peek_poke_same] at k3
      refine ⟨_, s', es', ?_, k2, ?_, ?_, rfl⟩
      · rw [k1]
        simp only [Option.map_some, hb']
        rfl
      · intro x y hy
        rw [k3] at hy
        unfold AttrMap.put at hy
        split at hy
        · injection hy with hy
          subst hy
          exact Or.inl p4
        · exact ho x y hy
      · rw [if_neg hb, k3]
        funext x
        unfold pyDict AttrMap.put
        split
        · simp only [Option.map_some, p5]
        · rfl
  | get name buf =>
    simp only [dictStep, pyAttrGet, dictNext, DictOk]
    rcases lookup_find h name with ⟨c1, c2, _⟩ | ⟨i, e, c1, c2, c3, c4, c5, c6⟩
    · rw [c1]
      refine ⟨_, s, es, rfl, h, ho, rfl, ?_⟩
      unfold pyDict
      rw [c2]
      rfl
    · rw [c1]
      simp only
      rw [c5]
      simp only
      obtain ⟨dm', k1, k2⟩ := getAttr_own h c6 (ho name e.val c6) buf env.junk
      have hd : (e.attr s.base).dtype = e.val.dtype := rfl
      have hn : (e.attr s.base).nmemb = (e.val.nmemb : Int) := rfl
      have hz : (itemsize env.m e.val.dtype * (e.val.nmemb : Int)).toNat = widthOf env.m e.val.dtype * e.val.nmemb := by
        obtain ⟨_, h2, _, _⟩ := findE_ok h c6
        unfold widthOf
        have : ((itemsize env.m e.val.dtype).toNat : Int) = itemsize env.m e.val.dtype := Int.toNat_of_nonneg (by omega)
        rw [← this, ← Int.natCast_mul, Int.toNat_natCast, Int.toNat_natCast]
      rw [hd, hn, k1]
      refine ⟨_, s, es, rfl, h, ho, rfl, ?_⟩
      simp only [ne_eq, not_true_eq_false, if_false]
      rw [hz, k2]
      unfold pyDict
      rw [c6]
      rfl
  | del name =>
    simp only [dictStep, pyAttrDel, dictNext, DictOk]
    obtain ⟨es', k1, _, k3, _⟩ := removeAttr_spec h name
    have hd : pyDict env.m (findE es') = fun x => if x = name then none else pyDict env.m (findE es) x := by
      rw [k3]
      funext x
      unfold pyDict AttrMap.del
      split <;> rfl
    have ho' : InOrder env.m (findE es') := by
      intro x y hy
      rw [k3] at hy
      unfold AttrMap.del at hy
      split at hy
      · cases hy
      · exact ho x y hy
    rcases lookup_find h name with ⟨c1, c2, _⟩ | ⟨i, e, c1, c2, c3, c4, c5, c6⟩
    · rw [c1]
      refine ⟨_, s, es, rfl, h, ho, ?_, ?_⟩
      · funext x
        split
        · rename_i hx
          subst hx
          unfold pyDict
          rw [c2]
          rfl
        · rfl
      · unfold pyDict
        rw [c2]
        rfl
    · rw [c1]
      refine ⟨_, _, es', rfl, k1, ho', hd, ?_⟩
      unfold pyDict
      rw [c6]
      rfl
  | has name =>
    simp only [dictStep, pyAttrHas, dictNext, DictOk]
    refine ⟨_, s, es, rfl, h, ho, rfl, ?_⟩
    unfold pyDict
    rcases lookup_find h name with ⟨c1, c2, _⟩ | ⟨i, e, c1, c2, c3, c4, c5, c6⟩
    · rw [c1, c2]; rfl
    · rw [c1, c6]; rfl
  | keys =>
    simp only [dictStep, pyAttrKeys, dictNext, DictOk, listAttrs]
    refine ⟨_, s, es, rfl, h, ho, rfl, _, rfl, ?_⟩
    have hnames : s.list.map s.nameOf = es.map Entry.name := by
      rw [h.list, List.map_map]
      apply List.map_congr_left
      intro e he
      exact (h.ok e he).nameOf
    have hs : (es.map Entry.name).Pairwise fun x y => strcmp x y = .lt := by
      rw [List.pairwise_map]; exact h.sorted
    rw [hnames, sortNames_sorted hs]
    refine ⟨hs, fun x => ?_⟩
    unfold pyDict
    rw [Option.isSome_map, List.mem_map]
    constructor
    · rintro ⟨e, he, rfl⟩
      rw [findE_mem h.sorted he]
      rfl
    · intro hx
      obtain ⟨v, hv⟩ := Option.isSome_iff_exists.mp hx
      obtain ⟨e, he, hn, _⟩ := findE_some hv
      exact ⟨e, he, hn⟩

theorem dictRun_spec {env : Env} (ops : List DictOp) : ∀ {s : AttrSet} {es : List Entry}, AttrInv env.m s es →
    InOrder env.m (findE es) → (∀ op ∈ ops, DictLegal env.m op) →
    ∃ anses s' es', dictRun env s ops = some (anses, s') ∧ AttrInv env.m s' es' ∧ InOrder env.m (findE es') ∧
      pyDict env.m (findE es') = dictAfter env.m (pyDict env.m (findE es)) ops ∧
      DictsOk env.m (pyDict env.m (findE es)) ops anses := by
  induction ops with
  | nil => intro s es h ho _; exact ⟨[], s, es, rfl, h, ho, rfl, trivial⟩
  | cons op ops ih =>
    intro s es h ho hl
    obtain ⟨ans, s1, es1, k1, k2, k3, k4, k5⟩ := dictStep_spec h ho op (hl op List.mem_cons_self)
    obtain ⟨anses, s', es', j1, j2, j3, j4, j5⟩ := ih k2 k3 fun o ho => hl o (List.mem_cons_of_mem _ ho)
    refine ⟨ans :: anses, s', es', ?_, j2, j3, ?_, k5, ?_⟩
    · simp only [dictRun, k1, Option.bind_some, j1, Option.map_some]
    · rw [j4, k4]; rfl
    · rw [← k4]; exact j5

/-- **C83** (partial: no arrays in the other byte order, no empty strings inside lists, lists of strings of less than 100000
bytes; see `C83_empty_str` and `C83_long_texts` for two of these, and `C32_changes` for the byte order). Take any well-formed
attributes of a block, all in the byte order of the machine, and any history of what Python does with `block.attrs`: setting,
getting and deleting items, asking for membership and listing the keys. It runs without undefined behaviour, every answer,
including the exceptions, is that of a dictionary from names to values, and in the end the attributes are what that
dictionary holds. -/
theorem C83_dict_partial (env : Env) (s : AttrSet) (hw : WellAttrs env.m s) (ho : InOrder env.m (attrView env.m s))
    (ops : List DictOp) (hl : ∀ op ∈ ops, DictLegal env.m op) :
    ∃ anses s', dictRun env s ops = some (anses, s') ∧
      DictsOk env.m (pyDict env.m (attrView env.m s)) ops anses ∧
      pyDict env.m (attrView env.m s') = dictAfter env.m (pyDict env.m (attrView env.m s)) ops ∧
      WellAttrs env.m s' ∧ InOrder env.m (attrView env.m s') := by
  obtain ⟨es, h⟩ := hw
  rw [h.view] at ho ⊢
  obtain ⟨anses, s', es', j1, j2, j3, j4, j5⟩ := dictRun_spec ops h ho hl
  refine ⟨anses, s', j1, j5, ?_, ⟨es', j2⟩, ?_⟩
  · rw [j2.view]; exact j4
  · rw [j2.view]; exact j3

/-! ### It is not vacuous -/

/-- A history with a string, a list of strings, an array, replacement, deletion and errors. -/
def exDictOps : List DictOp :=
  [.set b!"units" (.str b!"Mpc/h") 100, .set b!"names" (.texts [b!"gas", b!"halo"]) 500,
   .set b!"z" (.array b!"<i4" 2 [1, 2, 3, 4, 5, 6, 7, 8]) 900, .keys, .get b!"names" 100, .get b!"units" 200,
   .set b!"z" (.array b!"|b1" 1 [1]) 40, .get b!"z" 300, .del b!"units", .del b!"units", .has b!"units", .has b!"z",
   .get b!"units" 7, .set b!"a b" (.str b!"x") 100, .keys]

example : ∀ op ∈ exDictOps, DictLegal exEnv.m op := by
  intro op hop
  simp only [exDictOps, List.mem_cons, List.mem_nil_iff, or_false] at hop
  rcases hop with rfl | rfl | rfl | rfl | rfl | rfl | rfl | rfl | rfl | rfl | rfl | rfl | rfl | rfl | rfl <;>
    first
      | trivial
      | (refine ⟨by decide, by decide, ?_⟩; simp only [PutLegal]; decide)
      | (simp only [DictLegal]; decide)

example : (dictRun exEnv (attrsetCreate exEnv) exDictOps).map (·.1) =
    some [.done, .done, .done, .names [b!"names", b!"units", b!"z"], .value (.texts [b!"gas", b!"halo"]),
      .value (.str b!"Mpc/h"), .done, .value (.array b!"<b1" 1 [1]), .done, .exc .keyError, .bool false, .bool true,
      .exc .keyError, .exc .error, .names [b!"names", b!"z"]] := by decide +kernel

/-! ### Where it fails -/

/-- **C83 is false** for the empty string: it comes back as a string of one NUL. -/
theorem C83_empty_str : (dictRun exEnv (attrsetCreate exEnv) [.set b!"s" (.str []) 100, .get b!"s" 100]).map (·.1) =
    some [.done, .value (.str [0])] := by decide +kernel

/-- **C83 is false** for long strings in a list: the type string is cut to 7 characters, so of a string of 100000 bytes only
the first 10000 are stored; no error is raised. -/
theorem C83_long_texts (env : Env) (t : List Byte) (ht : t.length = 100000) (hz : (t.take 10000).getLast? ≠ some 0)
    (b1 b2 : Int) :
    (dictRun env (attrsetCreate env) [.set b!"s" (.texts [t]) b1, .get b!"s" b2]).map (·.1) =
      some [.done, .value (.texts [t.take 10000])] := by
  have hbuf : (PyValue.texts [t]).buffer = (b!"|S100000", 1, t) := by
    unfold PyValue.buffer
    simp only
    have hw : npWidth [t] = 100000 := by unfold npWidth npWidth; omega
    rw [hw]
    have : decStr 100000 = b!"100000" := by decide +kernel
    rw [this]
    simp only [List.length_singleton, List.flatMap_cons, List.flatMap_nil, List.append_nil]
    unfold npPad
    rw [ht]
    simp
  have e1 : dtypeNormalize env.m b!"|S100000" = env.m.endian :: b!"S10000" := by
    rw [show (b!"|S100000" : CStr) = [124, 83, 49, 48, 48, 48, 48, 48] from rfl]; rfl
  have e2 : itemsize env.m b!"|S100000" = 10000 := by
    unfold itemsize
    rw [e1]
    exact (by decide : atoi b!"10000" = 10000)
  have e3 : widthOf env.m b!"|S100000" = 10000 := by unfold widthOf; rw [e2]; rfl
  obtain ⟨s', es', sm', k1, k2, k3, _⟩ := setAttr_spec (attrsetCreate_inv env) b!"s" b!"|S100000" 1
    (poke env.junk b1 t) b1 (by decide) (by rw [e2]; decide) (by rw [e2]; decide) (by decide) (by decide)
  have hp : peek (poke env.junk b1 t) b1 (10000 * 1) = t.take 10000 := by
    have := peek_poke_sub env.junk b1 t 0 10000 (by omega)
    simpa using this
  rw [e3, hp] at k3
  have hv : findE es' b!"s" = some ⟨env.m.endian :: b!"S10000", 1, t.take 10000⟩ := by
    rw [k3, e1]
    unfold AttrMap.put
    rw [if_pos rfl]
  have hord : InOrder env.m (findE es') := by
    intro x y hy
    rw [k3] at hy
    unfold AttrMap.put at hy
    split at hy
    · injection hy with hy
      subst hy
      left
      rw [e1]
      unfold foreign charAt
      simp
    · cases hy
  obtain ⟨ans, s2, es2, j1, _, _, _, j5⟩ := dictStep_spec k2 hord (.get b!"s" b2) (by show (0 : Byte) ∉ b!"s"; decide)
  have hset : dictStep env (attrsetCreate env) (.set b!"s" (.texts [t]) b1) = some (.done, s') := by
    simp only [dictStep, pyAttrSet, hbuf]
    have : ((1 : Nat) : Int) = 1 := rfl
    rw [k1]
    rfl
  simp only [dictRun, hset, Option.bind_some, j1, Option.map_some]
  simp only [DictOk] at j5
  have hd : pyDict env.m (findE es') b!"s" = some (.texts [t.take 10000]) := by
    unfold pyDict
    rw [hv]
    simp only [Option.map_some, pyItem]
    rw [if_pos (by rfl)]
    have hw : widthOf env.m (env.m.endian :: b!"S10000") = 10000 := by
      rw [← e1]; unfold widthOf; rw [itemsize_normalize, e2]; rfl
    rw [hw]
    have he : elemBytes 10000 (t.take 10000) 0 = t.take 10000 := by
      unfold elemBytes
      rw [Nat.zero_mul, List.drop_zero, List.take_take, Nat.min_self]
    have hs := npStrip_pad (s := t.take 10000) 0 hz
    rw [List.replicate_zero, List.append_nil] at hs
    simp only [List.range_one, List.map_cons, List.map_nil]
    rw [he, hs]
  rw [hd] at j5
  rw [j5]

example : ∃ t : List Byte, t.length = 100000 ∧ (t.take 10000).getLast? ≠ some 0 := by
  refine ⟨List.replicate 100000 65, List.length_replicate, ?_⟩
  rw [List.take_replicate, List.getLast?_replicate]
  decide

end Verif
