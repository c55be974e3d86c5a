import Verif.Proof.Tools
import Verif.Props.Copy
/-!
# C68: `bigfile-set-attr` and `bigfile-get-attr`
-/

set_option autoImplicit false

namespace Verif

open Spec

variable {env : Env} {K : Kind} {A : Content} {w : World} {bb : Block}

theorem noNul_of_clean {s : CStr} (h : Clean s) : (0 : Byte) ∉ s := fun h0 => (h 0 h0).1 rfl

theorem noBlank_of_clean {s : CStr} (h : Clean s) : hasBlank s = false := by
  unfold hasBlank
  rw [List.any_eq_false]
  intro c hc
  obtain ⟨_, h1, h2, h3⟩ := h c hc
  simp [h1, h2, h3]

theorem Spec.Holds.removed {name : CStr} {fs : FS} (h : Holds env K bb fs A) (h0 : (0 : Byte) ∉ name) :
    Holds env K { bb with attrset := (removeAttr bb.attrset name).2 } fs { A with attrs := A.attrs.del name } := by
  have hw : Holds env K bb (World.mk fs noFaults 0).fs A := h
  obtain ⟨x, bb', w', e, d⟩ := bop_step (w := ⟨fs, noFaults, 0⟩) hw rfl (.attr (.remove name)) ⟨h0, by
    intro n v hv
    unfold attrNext AttrMap.del at hv
    simp only at hv
    split at hv
    · cases hv
    · exact h.tame.1 n v hv⟩
  injection e with e1 e2
  have h2 := d.holds
  rw [← (Prod.mk.inj e1).2, ← e2] at h2
  have e3 : A.next env K (.attr (.remove name)) = { A with attrs := A.attrs.del name } := by
    unfold Content.next AttrOp.isSet attrNext
    simp
  rw [e3] at h2
  exact h2

theorem Spec.Holds.attrSet {name dt : CStr} {fs : FS} (h : Holds env K bb fs A) (nmemb : Nat) (mem : Mem) (buf : Int)
    (hne : name ≠ []) (hc : Clean name) (hlen : name.length < 9223372036854775808) (hdt : Clean (dtypeNormalize env.m dt))
    (hi : 0 < itemsize env.m dt) (hnm : 0 < nmemb) (hsz : widthOf env.m dt * nmemb < 1073741824)
    (hnat : Native env.m ⟨dtypeNormalize env.m dt, nmemb, peek mem buf (widthOf env.m dt * nmemb)⟩) :
    ∃ s' mem', setAttr env bb.attrset name buf dt nmemb mem = some (0, s', mem') ∧
      Holds env K { bb with attrset := s' } fs
        { A with attrs := A.attrs.put name ⟨dtypeNormalize env.m dt, nmemb, peek mem buf (widthOf env.m dt * nmemb)⟩, pending := true } := by
  have hb := noBlank_of_clean hc
  have hw : Holds env K bb (World.mk fs noFaults 0).fs A := h
  have hfit : itemsize env.m dt * nmemb < 2147483648 := by
    unfold widthOf at hsz
    have : itemsize env.m dt = ((itemsize env.m dt).toNat : Int) := by omega
    rw [this, ← Int.natCast_mul]
    omega
  obtain ⟨x, bb', w', e, d⟩ := bop_step (w := ⟨fs, noFaults, 0⟩) hw rfl (.attr (.set name dt nmemb mem buf)) ⟨⟨noNul_of_clean hc, hlen, hi, hfit⟩, by
    intro n v hv
    unfold attrNext at hv
    simp only [hb, Bool.false_eq_true, if_false] at hv
    unfold AttrMap.put at hv
    split at hv
    · rename_i hn
      subst hn
      injection hv with hv
      subst hv
      exact ⟨⟨hne, hc, hlen, hdt, hnm, by rw [peek_length]; exact hsz⟩, hnat⟩
    · exact h.tame.1 n v hv⟩
  obtain ⟨es, hi'⟩ := h.savable.attrs
  obtain ⟨s', es', sm', k1, _⟩ := setAttr_spec hi' name dt nmemb mem buf (noNul_of_clean hc) hi hfit hlen hb
  refine ⟨s', sm', k1, ?_⟩
  unfold runBOp attrStep at e
  simp only [bind, M.bind, pure, M.pure, M.lift, k1, Option.map_some] at e
  injection e with e1 e2
  have h2 := d.holds
  rw [← (Prod.mk.inj e1).2, ← e2] at h2
  have e3 : A.next env K (.attr (.set name dt nmemb mem buf)) =
      { A with attrs := A.attrs.put name ⟨dtypeNormalize env.m dt, nmemb, peek mem buf (widthOf env.m dt * nmemb)⟩, pending := true } := by
    unfold Content.next AttrOp.isSet attrNext
    simp [hb]
  rw [e3] at h2
  exact h2

/-- The attribute of a name, as the tools look it up. -/
theorem Spec.Holds.lookup {fs : FS} (h : Holds env K bb fs A) (name : CStr) :
    ((lookupAttr bb.attrset name).bind fun i => bb.attrset.list[i]?).map Attr.nmemb = (A.attrs name).map fun v => (v.nmemb : Int) := by
  obtain ⟨es, hi⟩ := h.savable.attrs
  have hes : findE es = A.attrs := hi.view.symm.trans h.attrs
  rw [← hes]
  rcases lookup_find hi name with ⟨h1, h2, _⟩ | ⟨i, e, h1, h2, h3, h4, h5, h6⟩
  · rw [h1, h2]; rfl
  · rw [h1, Option.bind_some, h5, h6]; rfl

/-- Bytes are those of their elements. -/
theorem flatten_elems (b : List Byte) (W : Nat) : ∀ (es : List (List Byte)), b.length = es.length * W →
    (∀ i (h : i < es.length), elemBytes W b i = es[i]) → b = es.flatten := by
  intro es
  induction es generalizing b with
  | nil => intro h _; simpa using h
  | cons e es ih =>
    intro h he
    have h0 := he 0 (by simp)
    unfold elemBytes at h0
    simp only [Nat.zero_mul, List.drop_zero, List.getElem_cons_zero] at h0
    rw [List.length_cons, Nat.add_mul] at h
    have := ih (b.drop W) (by rw [List.length_drop]; omega) (by
      intro i hi
      have h1 := he (i + 1) (by simpa using hi)
      unfold elemBytes at h1 ⊢
      rw [List.getElem_cons_succ] at h1
      rw [← h1, List.drop_drop, Nat.add_mul, Nat.one_mul, Nat.add_comm])
    rw [List.flatten_cons, ← h0, ← this, List.take_append_drop]

/-- Setting an attribute from texts whose elements are known. -/
theorem setAttrMain_bytes (sc : FloatScan) (file block name : CStr) (force : Bool) (dt T : CStr) (W : Nat)
    (nmemb : Int) (args : List CStr) (bs : Nat → List Byte) (buf : Int) (mem : Mem) (hnf : w.faults = noFaults)
    (hf : file ≠ []) (hfl : file.length ≤ 8192) (hfile : (w.fs.node (resolve file)).isSome = true)
    (hsrc : OnDisk env K w.fs (pathJoin file block) A) (hT : TextType env.m dt T W) (hargs : args ≠ [])
    (hall : ∀ i (h : i < args.length), parseNative env sc T args[i] = some (bs i) ∧ (bs i).length = W)
    (hsz : args.length * W < 1073741824) (hname : name ≠ []) (hclean : Clean name) (hlen : name.length < 9223372036854775808)
    (hn : nmemb = args.length ∨ (nmemb = 0 ∧ force = false ∧ ∃ v, A.attrs name = some v ∧ v.nmemb = args.length)) :
    ∃ w' v, setAttrMain env sc file block name force (some dt) nmemb args buf mem w = .ok .done w' ∧
      OnDisk env K w'.fs (pathJoin file block) (A.withAttr name v) ∧ v.dtype = T ∧ v.nmemb = args.length ∧
      v.bytes.length = args.length * W ∧ (∀ i, i < args.length → elemBytes W v.bytes i = bs i) ∧
      SameOutside (pathJoin file block) w.fs w'.fs ∧ w'.faults = noFaults := by
  obtain ⟨w1, e1, f1, nf1⟩ := bigFileOpen_succeeds hnf hf hfile hfl
  obtain ⟨bb, w2, e2, f2, nf2, hbase, _, h2⟩ := (show OnDisk env K w1.fs _ A by rw [f1]; exact hsrc).opens nf1
  rw [← f2] at h2
  have hit := hT.size'
  have hw0 := hT.pos
  have hwd : widthOf env.m dt = W := by unfold widthOf; omega
  have hpos : 0 < args.length := List.length_pos_iff.mpr hargs
  -- after `-f`
  generalize hs : (if force then (removeAttr bb.attrset name).2 else bb.attrset) = s
  obtain ⟨N, hN, h3⟩ : ∃ N : AttrMap, N.put name = A.attrs.put name ∧
      (Holds env K { bb with attrset := s } w2.fs { A with attrs := N } ∧ (force = false → N = A.attrs)) := by
    cases force with
    | true =>
      refine ⟨A.attrs.del name, ?_, ?_, fun h => by cases h⟩
      · funext v n
        unfold AttrMap.put AttrMap.del
        split <;> rfl
      · rw [if_pos rfl] at hs
        subst hs
        exact h2.removed (noNul_of_clean hclean)
    | false =>
      refine ⟨A.attrs, rfl, ?_, fun _ => rfl⟩
      rw [if_neg (by simp)] at hs
      subst hs
      exact h2
  obtain ⟨h3, hMf⟩ := h3
  have hcount : (if nmemb = 0 then (((lookupAttr s name).bind fun i => s.list[i]?).map Attr.nmemb).getD 0 else nmemb) = (args.length : Nat) := by
    rcases hn with hn | ⟨hn, hff, v, hv, hvn⟩
    · rw [if_neg (by omega), hn]
    · rw [if_pos hn]
      have := h3.lookup name
      simp only [hMf hff, hv] at this
      rw [this, Option.map_some, hvn]
      rfl
  obtain ⟨mem1, v1, v2⟩ := setValue_bytes (env := env) sc hT args bs hall hargs hsz buf mem
  obtain ⟨s', mem2, k1, k2⟩ := h3.attrSet (name := name) (dt := dt) args.length mem1 buf hname hclean hlen
    (by rw [hT.norm]; exact hT.clean) (by omega) hpos
    (by rw [hwd, Nat.mul_comm]; exact hsz)
    (Or.inl (by
      show foreign env.m (dtypeNormalize env.m dt) = false
      rw [hT.norm]
      exact hT.local_))
  obtain ⟨w3, c1, c2, c3, c4⟩ := k2.closes nf2
  refine ⟨w3, ⟨dtypeNormalize env.m dt, args.length, peek mem1 buf (widthOf env.m dt * args.length)⟩, ?_, ?_, hT.norm, rfl, ?_, ?_, ?_, c2⟩
  · unfold setAttrMain openBlock
    simp only [bind, M.bind]
    rw [e1]
    simp only [ne_eq, not_true_eq_false, if_false]
    rw [M.bind, e2]
    simp only
    simp only [hs, M.lift, M.bind, M.pure, pure, hcount, v1, k1, c1]
  · have : Content.closed { A with attrs := N.put name ⟨dtypeNormalize env.m dt, args.length, peek mem1 buf (widthOf env.m dt * args.length)⟩, pending := true } =
        A.withAttr name ⟨dtypeNormalize env.m dt, args.length, peek mem1 buf (widthOf env.m dt * args.length)⟩ := by
      rw [hN]
      rfl
    rw [← this, ← hbase]
    exact c4
  · show (peek mem1 buf _).length = _
    rw [peek_length, hwd, Nat.mul_comm]
  · intro i hi
    show elemBytes _ (peek mem1 buf _) i = _
    rw [hwd, elemBytes_peek _ _ _ _ _ hi]
    exact v2 i hi
  · rw [← f1, ← f2, ← hbase]
    exact c3

/-- **C68** for integers (partial: integer types in machine byte order; the dtype is given; the number of values is given or is that of the attribute
replaced). `bigfile-set-attr` stores exactly the integers given, as an attribute of this name and dtype; all other attributes and all
data are as before; nothing outside the block is touched. -/
theorem C68_set_partial (env : Env) (sc : FloatScan) (K : Kind) (A : Content) (file block name : CStr) (force : Bool) (dt : CStr) (t : IntTy)
    (nmemb : Int) (xs : List Int) (buf : Int) (mem : Mem) (w : World) (hnf : w.faults = noFaults)
    (hf : file ≠ []) (hfl : file.length ≤ 8192) (hfile : (w.fs.node (resolve file)).isSome = true)
    (hsrc : OnDisk env K w.fs (pathJoin file block) A) (hdt : dtypeNormalize env.m dt = t.dtype env.m.order) (hxs : xs ≠ [])
    (hall : ∀ x ∈ xs, t.holds x) (hsz : xs.length * t.width < 1073741824) (hname : name ≠ []) (hclean : Clean name)
    (hlen : name.length < 9223372036854775808)
    (hn : nmemb = xs.length ∨ (nmemb = 0 ∧ force = false ∧ ∃ v, A.attrs name = some v ∧ v.nmemb = xs.length)) :
    ∃ w' v, setAttrMain env sc file block name force (some dt) nmemb (xs.map intStr) buf mem w = .ok .done w' ∧
      OnDisk env K w'.fs (pathJoin file block) (A.withAttr name v) ∧ IsInts env.m.order t xs v ∧
      SameOutside (pathJoin file block) w.fs w'.fs ∧ w'.faults = noFaults := by
  have hbs : ∀ i, ∃ bs, ∀ h : i < xs.length, parseNative env sc (t.dtype env.m.order) (intStr xs[i]) = some bs ∧ bs.length = t.width ∧
      intVal env.m.order t bs = xs[i] := by
    intro i
    by_cases h : i < xs.length
    · have hx := hall _ (List.getElem_mem h)
      obtain ⟨n, h1, h2⟩ := parseNative_int (env := env) sc t env.m.order _ hx
      exact ⟨_, fun _ => ⟨h1, natEnc_length _ _ _, intVal_natEnc _ _ _ _ hx h2⟩⟩
    · exact ⟨[], fun h' => absurd h' h⟩
  obtain ⟨bs, hbs⟩ := Classical.axiomOfChoice hbs
  obtain ⟨w', v, k1, k2, k3, k4, k5, k6, k7, k8⟩ := setAttrMain_bytes (env := env) (K := K) (A := A) (w := w) sc file block name force dt _ _
    nmemb (xs.map intStr) bs buf mem hnf hf hfl hfile hsrc (intTy_text hdt) (by simpa using hxs) (by
      intro i hi
      rw [List.length_map] at hi
      rw [List.getElem_map]
      exact ⟨(hbs i hi).1, (hbs i hi).2.1⟩) (by rw [List.length_map]; exact hsz) hname hclean hlen (by rw [List.length_map]; exact hn)
  rw [List.length_map] at k4 k5 k6
  exact ⟨w', v, k1, k2, ⟨k3, k4, k5, fun i hi => by rw [k6 i hi]; exact (hbs i hi).2.2⟩, k7, k8⟩

/-- **C68** for characters, floating point and complex numbers (partial: machine byte order; the dtype is given; the number of values is
given or is that of the attribute replaced). Texts that each denote an element are stored as exactly these elements, as an attribute of
this name and dtype; all other attributes and all data are as before; nothing outside the block is touched. -/
theorem C68_set_real_partial (env : Env) (sc : FloatScan) (K : Kind) (A : Content) (file block name : CStr) (force : Bool) (dt ty : CStr)
    (nmemb : Int) (args : List CStr) (elems : List (List Byte)) (buf : Int) (mem : Mem) (w : World) (hnf : w.faults = noFaults)
    (hf : file ≠ []) (hfl : file.length ≤ 8192) (hfile : (w.fs.node (resolve file)).isSome = true)
    (hsrc : OnDisk env K w.fs (pathJoin file block) A) (hdt : dtypeNormalize env.m dt = env.m.endian :: ty) (hargs : args ≠ [])
    (hlen2 : args.length = elems.length) (hall : ∀ p ∈ args.zip elems, Denotes env.m sc ty p.1 p.2) (hsz : args.length < 67108864) (hname : name ≠ []) (hclean : Clean name)
    (hlen : name.length < 9223372036854775808)
    (hn : nmemb = args.length ∨ (nmemb = 0 ∧ force = false ∧ ∃ v, A.attrs name = some v ∧ v.nmemb = args.length)) :
    ∃ w', setAttrMain env sc file block name force (some dt) nmemb args buf mem w = .ok .done w' ∧
      OnDisk env K w'.fs (pathJoin file block) (A.withAttr name ⟨env.m.endian :: ty, args.length, elems.flatten⟩) ∧
      SameOutside (pathJoin file block) w.fs w'.fs ∧ w'.faults = noFaults := by
  have hget : ∀ i (h : i < args.length), Denotes env.m sc ty args[i] (elems.getD i []) := by
    intro i h
    have h' : i < elems.length := by omega
    have := hall ((args.zip elems)[i]'(by rw [List.length_zip]; omega)) (List.getElem_mem _)
    rw [List.getElem_zip] at this
    rw [List.getD_eq_getElem?_getD, List.getElem?_eq_getElem h', Option.getD_some]
    exact this
  have hpos : 0 < args.length := List.length_pos_iff.mpr hargs
  have hT := denotes_type (denotes_width (hget 0 hpos)).1 hdt
  have h16 := hT.small
  generalize hW : (itemsize env.m (env.m.endian :: ty)).toNat = W at hT h16
  have hwid : ∀ i (h : i < args.length), (elems.getD i []).length = W := by
    intro i h
    rw [(denotes_width (hget i h)).2, hW]
  obtain ⟨w', v, k1, k2, k3, k4, k5, k6, k7, k8⟩ := setAttrMain_bytes (env := env) (K := K) (A := A) (w := w) sc file block name force dt _ _
    nmemb args (fun i => elems.getD i []) buf mem hnf hf hfl hfile hsrc hT hargs
    (fun i hi => ⟨parseNative_denotes sc _ (hget i hi), hwid i hi⟩)
    (by have := Nat.mul_lt_mul_of_lt_of_le hsz h16 (by omega); omega) hname hclean hlen hn
  have hv : v = ⟨env.m.endian :: ty, args.length, elems.flatten⟩ := by
    cases v with
    | mk d n b =>
      simp only at k3 k4 k5 k6
      rw [k3, k4]
      congr 1
      have hb := flatten_elems b W elems (by rw [k5, hlen2]) (fun i hi => by
        have := k6 i (hlen2 ▸ hi)
        rw [List.getD_eq_getElem?_getD, List.getElem?_eq_getElem hi, Option.getD_some] at this
        exact this)
      exact hb
  rw [hv] at k2
  exact ⟨w', k1, k2, k7, k8⟩

/-- `bigfile-get-attr` of a block shows exactly the attributes asked for, or all of them in the order of their names, and changes
nothing. -/
theorem C68_get (env : Env) (K : Kind) (A : Content) (file block : CStr) (long : Bool) (names : List CStr) (w : World)
    (hnf : w.faults = noFaults) (hf : file ≠ []) (hfl : file.length ≤ 8192) (hfile : (w.fs.node (resolve file)).isSome = true)
    (hsrc : OnDisk env K w.fs (pathJoin file block) A) (hw : ∀ n v, (names = [] ∨ n ∈ names) → A.attrs n = some v → widthOf env.m v.dtype ≤ 128) :
    ∃ w' out, getAttrMain env file block long names w = .ok (.done, out) w' ∧ w'.fs = w.fs ∧
      (names ≠ [] → out = (names.map fun n => nameShown env (names.length == 1 && !long) A.attrs n).flatten) ∧
      (names = [] → ∃ ns : List CStr, ns.Pairwise (fun a b => strcmp a b = .lt) ∧ (∀ n, n ∈ ns ↔ (A.attrs n).isSome = true) ∧
        out = (ns.map fun n => nameShown env false A.attrs n).flatten) := by
  obtain ⟨w1, e1, f1, nf1⟩ := bigFileOpen_succeeds hnf hf hfile hfl
  obtain ⟨bb, w2, e2, f2, nf2, hbase, hd2, h2⟩ := (show OnDisk env K w1.fs _ A by rw [f1]; exact hsrc).opens nf1
  rw [← f2] at h2
  obtain ⟨es, hi⟩ := h2.savable.attrs
  have hes : findE es = A.attrs := hi.view.symm.trans h2.attrs
  have hcl : blockClose env bb w2 = .ok 0 w2 := blockClose_clean hd2 (by rw [h2.pending]; exact hsrc.1)
  have hgo : ∀ out, (if names.isEmpty then printAll env long bb.attrset.list bb.attrset
        else printNamed env long (names.length == 1) names bb.attrset) = some (out, bb.attrset) →
      getAttrMain env file block long names w = .ok (.done, out) w2 := by
    intro out ho
    unfold getAttrMain openBlock
    simp only [bind, M.bind]
    rw [e1]
    simp only [ne_eq, not_true_eq_false, if_false]
    rw [M.bind, e2]
    simp only
    have hcl' : blockClose env { bb with attrset := bb.attrset } w2 = .ok 0 w2 := hcl
    simp only [ho, M.lift, M.bind, M.pure, pure, hcl']
  by_cases hn : names = []
  · have hok : ∀ e ∈ es, EntryOk env.m bb.attrset e ∧ Native env.m e.val ∧ widthOf env.m e.val.dtype ≤ 128 := by
      intro e he
      have hv : A.attrs e.name = some e.val := by rw [← hes]; exact findE_mem hi.sorted he
      exact ⟨hi.ok e he, (h2.tame.1 _ _ hv).2, hw _ _ (Or.inl hn) hv⟩
    refine ⟨w2, _, hgo _ (by rw [hn, List.isEmpty_nil, if_pos rfl, hi.list, printAll_spec long es hok]), by rw [f2, f1],
      fun h => absurd hn h, fun _ => ⟨es.map Entry.name, ?_, ?_, ?_⟩⟩
    · exact List.pairwise_map.mpr hi.sorted
    · intro n
      rw [← hes]
      constructor
      · intro h
        obtain ⟨e, he, rfl⟩ := List.mem_map.mp h
        rw [findE_mem hi.sorted he]; rfl
      · intro h
        obtain ⟨v, hv⟩ := Option.isSome_iff_exists.mp h
        obtain ⟨e, he, h3, _⟩ := findE_some hv
        exact List.mem_map.mpr ⟨e, he, h3⟩
    · rw [List.map_map]
      congr 1
      apply List.map_congr_left
      intro e he
      show _ = nameShown env false A.attrs e.name
      unfold nameShown
      rw [← hes, findE_mem hi.sorted he]
  · refine ⟨w2, _, hgo _ (by
      rw [if_neg (by simpa using hn), printNamed_spec hi long (names.length == 1) names (fun n hn' v hv => by
        rw [hes] at hv
        exact ⟨(h2.tame.1 _ _ hv).2, hw _ _ (Or.inr hn') hv⟩)]), by rw [f2, f1], fun _ => by rw [hes], fun h => absurd h hn⟩

/-- The text of integers. -/
theorem Spec.IsInts.text {t : IntTy} {o : Order} {xs : List Int} {v : AttrVal} (h : IsInts o t xs v) :
    valueText env v = (b!" ").intercalate (xs.map intStr) := by
  have hk : charAt v.dtype 1 ≠ 83 := by
    rw [h.dtype]
    cases t <;> cases o <;> decide
  have hwd : widthOf env.m v.dtype = t.width := by
    unfold widthOf
    rw [h.dtype, intTy_itemsize]
    omega
  unfold valueText
  rw [if_neg hk, hwd, h.nmemb]
  refine congrArg _ ?_
  apply List.ext_getElem
  · simp
  · intro i h1 h2
    simp only [List.length_map, List.length_range] at h1
    rw [List.getElem_map, List.getElem_map, List.getElem_range, h.dtype, elemText_int _ _ _ ?_, h.elems i h1]
    unfold elemBytes
    have := Nat.mul_le_mul_right t.width (show i + 1 ≤ xs.length from h1)
    rw [Nat.add_mul] at this
    rw [List.length_take, List.length_drop, h.bytes]
    omega

/-- What `bigfile-set-attr` stored, `bigfile-get-attr` prints. -/
theorem C68_roundtrip_partial (env : Env) (sc : FloatScan) (K : Kind) (A : Content) (file block name : CStr) (force : Bool) (dt : CStr)
    (t : IntTy) (xs : List Int) (buf : Int) (mem : Mem) (w : World) (hnf : w.faults = noFaults)
    (hf : file ≠ []) (hfl : file.length ≤ 8192) (hfile : (w.fs.node (resolve file)).isSome = true)
    (hsrc : OnDisk env K w.fs (pathJoin file block) A) (hdt : dtypeNormalize env.m dt = t.dtype env.m.order) (hxs : xs ≠ [])
    (hall : ∀ x ∈ xs, t.holds x) (hsz : xs.length * t.width < 1073741824) (hname : name ≠ []) (hclean : Clean name)
    (hlen : name.length < 9223372036854775808) :
    ∃ w1 w2, setAttrMain env sc file block name force (some dt) xs.length (xs.map intStr) buf mem w = .ok .done w1 ∧
      getAttrMain env file block false [name] w1 = .ok (.done, (b!" ").intercalate (xs.map intStr) ++ b!"\n") w2 := by
  obtain ⟨w1, v, h1, h2, h3, h4, h5⟩ := C68_set_partial env sc K A file block name force dt t xs.length xs buf mem w hnf hf hfl hfile hsrc hdt hxs
    hall hsz hname hclean hlen (Or.inl rfl)
  have hv : (A.withAttr name v).attrs name = some v := by
    show (if name = name then some v else _) = _
    rw [if_pos rfl]
  have hwd : widthOf env.m v.dtype ≤ 128 := by
    unfold widthOf
    rw [h3.dtype, intTy_itemsize]
    cases t <;> decide
  have hfile1 : (w1.fs.node (resolve file)).isSome = true := by
    rw [h4 (resolve file) ?_]
    · exact hfile
    · intro id he
      rw [fileKey_eq, resolve_join _ _ hf] at he
      have := congrArg List.length he
      simp only [List.length_append, List.length_singleton] at this
      omega
  obtain ⟨w2, out, g1, _, g3, _⟩ := C68_get env K _ file block false [name] w1 h5 hf hfl hfile1 h2 (by
    intro n u hn hu
    rcases hn with hn | hn
    · cases hn
    · rw [List.mem_singleton] at hn
      subst hn
      rw [hv] at hu
      injection hu with hu
      subst hu
      exact hwd)
  refine ⟨w1, w2, h1, ?_⟩
  rw [g1, g3 (by simp)]
  have e1 : nameShown env (([name] : List CStr).length == 1 && !false) (A.withAttr name v).attrs name = valueText env v ++ b!"\n" := by
    unfold nameShown
    rw [hv]
    rfl
  rw [List.map_cons, e1, h3.text]
  simp

/-- With a number of values other than `-n`, nothing happens. -/
theorem C68_count (env : Env) (sc : FloatScan) (K : Kind) (A : Content) (file block name : CStr) (force : Bool) (dt : CStr)
    (nmemb : Nat) (args : List CStr) (buf : Int) (mem : Mem) (w : World) (hnf : w.faults = noFaults)
    (hf : file ≠ []) (hfl : file.length ≤ 8192) (hfile : (w.fs.node (resolve file)).isSome = true)
    (hsrc : OnDisk env K w.fs (pathJoin file block) A) (hi : 0 ≤ itemsize env.m dt) (hk : dtypeKind env.m dt ≠ 83)
    (hsz : itemsize env.m dt * nmemb < 2147483648) (h0 : nmemb ≠ 0) (hn : nmemb ≠ args.length) :
    ∃ w', setAttrMain env sc file block name force (some dt) nmemb args buf mem w = .ok .failed w' ∧ w'.fs = w.fs := by
  obtain ⟨w1, e1, f1, nf1⟩ := bigFileOpen_succeeds hnf hf hfile hfl
  obtain ⟨bb, w2, e2, f2, nf2, hbase, _, h2⟩ := (show OnDisk env K w1.fs _ A by rw [f1]; exact hsrc).opens nf1
  have hpos : 0 ≤ itemsize env.m dt * nmemb := Int.mul_nonneg hi (by omega)
  have hv : setValue env sc dt nmemb args buf mem = some none := by
    unfold setValue
    have hfi : fitsInt (itemsize env.m dt * nmemb) = true := by
      unfold fitsInt
      simp only [Bool.and_eq_true, decide_eq_true_eq]
      omega
    have h3 : ¬ (itemsize env.m dt * nmemb < 0) := by omega
    have h4 : ¬ ((nmemb : Int) = 0) := by omega
    have h5 : ((nmemb : Int) ≠ args.length) := by omega
    simp only [hfi, h3, h4, hk, decide_false, Bool.not_true, Bool.or_false, Bool.false_eq_true, if_false]
    rw [if_pos h5]
  refine ⟨w2, ?_, by rw [f2, f1]⟩
  have h4 : ¬ ((nmemb : Int) = 0) := by omega
  unfold setAttrMain openBlock
  simp only [bind, M.bind]
  rw [e1]
  simp only [ne_eq, not_true_eq_false, if_false]
  rw [M.bind, e2]
  simp only [M.lift, M.bind, M.pure, pure, h4, if_false, hv]

/-- The types that texts can be turned into. -/
def textTypes : List CStr := [b!"a1", b!"i8", b!"i4", b!"u8", b!"u4", b!"f8", b!"f4", b!"c8", b!"c16"]

/-- With a type that texts cannot be turned into (and that is not a string type), nothing happens. -/
theorem C68_unknown (env : Env) (sc : FloatScan) (K : Kind) (A : Content) (file block name : CStr) (force : Bool) (o : Byte) (ty : CStr)
    (nmemb : Nat) (args : List CStr) (buf : Int) (mem : Mem) (w : World) (hnf : w.faults = noFaults)
    (hf : file ≠ []) (hfl : file.length ≤ 8192) (hfile : (w.fs.node (resolve file)).isSome = true)
    (hsrc : OnDisk env K w.fs (pathJoin file block) A) (ho : o ∈ b!"<>|=") (hlen : ty.length ≤ 6) (hty : ty ∉ textTypes)
    (hi : 0 < itemsize env.m (o :: ty)) (hk : dtypeKind env.m (o :: ty) ≠ 83)
    (hsz : itemsize env.m (o :: ty) * nmemb < 2147483648) (h0 : nmemb ≠ 0) (hargs : args ≠ []) :
    ∃ w', setAttrMain env sc file block name force (some (o :: ty)) nmemb args buf mem w = .ok .failed w' ∧ w'.fs = w.fs := by
  by_cases hn : nmemb ≠ args.length
  · exact C68_count env sc K A file block name force _ nmemb args buf mem w hnf hf hfl hfile hsrc (by omega) hk hsz h0 hn
  obtain ⟨w1, e1, f1, nf1⟩ := bigFileOpen_succeeds hnf hf hfile hfl
  obtain ⟨bb, w2, e2, f2, nf2, hbase, _, h2⟩ := (show OnDisk env K w1.fs _ A by rw [f1]; exact hsrc).opens nf1
  have hpos : 0 < itemsize env.m (o :: ty) * nmemb := Int.mul_pos hi (by omega)
  have hnorm : (dtypeNormalize env.m (61 :: (dtypeNormalize env.m (o :: ty)).drop 1)).drop 1 = ty := by
    have htk : ty.take 6 = ty := List.take_of_length_le hlen
    simp only [List.mem_cons, List.not_mem_nil, or_false] at ho
    rcases ho with rfl | rfl | rfl | rfl
    · rw [normalize_lt, normalize_eq]; simp [htk]
    · rw [normalize_gt, normalize_eq]; simp [htk]
    · rw [normalize_bar, normalize_eq]; simp [htk]
    · rw [normalize_eq, normalize_eq]; simp [htk]
  have hp : ∀ text, parseNative env sc (dtypeNormalize env.m (61 :: (dtypeNormalize env.m (o :: ty)).drop 1)) text = none := by
    intro text
    unfold parseNative
    simp only [textTypes, List.mem_cons, List.not_mem_nil, or_false, not_or] at hty
    obtain ⟨k1, k2, k3, k4, k5, k6, k7, k8, k9⟩ := hty
    simp only [hnorm]
    rw [if_neg k1, if_neg k2, if_neg k3, if_neg k4, if_neg k5, if_neg k6, if_neg k7, if_neg k8, if_neg k9]
  have hv : setValue env sc (o :: ty) nmemb args buf mem = some none := by
    unfold setValue
    have hfi : fitsInt (itemsize env.m (o :: ty) * nmemb) = true := by
      unfold fitsInt
      simp only [Bool.and_eq_true, decide_eq_true_eq]
      omega
    have h3 : ¬ (itemsize env.m (o :: ty) * nmemb < 0) := by omega
    have h4 : ¬ ((nmemb : Int) = 0) := by omega
    have h5 : ¬ ((nmemb : Int) ≠ args.length) := by omega
    simp only [hfi, h3, h4, hk, decide_false, Bool.not_true, Bool.or_false, Bool.false_eq_true, if_false]
    rw [if_neg h5]
    obtain ⟨a, as, rfl⟩ : ∃ a as, args = a :: as := by
      cases args with
      | nil => exact absurd rfl hargs
      | cons a as => exact ⟨a, as, rfl⟩
    unfold parseArgs dtypeParse
    simp only [hp]
    rw [if_pos (by decide), if_pos (by simpa using hpos)]
    rfl
  refine ⟨w2, ?_, by rw [f2, f1]⟩
  have h4 : ¬ ((nmemb : Int) = 0) := by omega
  unfold setAttrMain openBlock
  simp only [bind, M.bind]
  rw [e1]
  simp only [ne_eq, not_true_eq_false, if_false]
  rw [M.bind, e2]
  simp only [M.lift, M.bind, M.pure, pure, h4, if_false, hv]

/-! ### Examples -/

/-- No text is a floating point number. -/
def exScan : FloatScan := ⟨fun _ => none, fun _ => none⟩

/-- Set attributes of block `z`, one after another: name, dtype, number, values. -/
def exSetAll : List (CStr × Option CStr × Int × List CStr) → M Exit
  | [] => pure .done
  | (name, dt, n, vs) :: ss => do
    let e ← setAttrMain exEnv exScan b!"d" b!"z" name false dt n vs 500 exMem
    if e = Exit.done then exSetAll ss else pure e

/-- Make block `z`, set attributes, show them. -/
def exSetGet (sets : List (CStr × Option CStr × Int × List CStr)) (long : Bool) (names : List CStr) : Res (Exit × CStr) :=
  ((do
    let _ ← exCopySrc
    let e ← exSetAll sets
    if e = Exit.done then getAttrMain exEnv b!"d" b!"z" long names else pure (e, [])) exTreeWorld)

/-- The example of `C68_set_real_partial`: complex numbers, read by a C library that knows one-digit numbers. -/
def exScan1 : FloatScan := ⟨fun s => match s with | c :: r => if 48 ≤ c ∧ c ≤ 57 then some (c.toNat, r) else none | [] => none,
  fun s => match s with | c :: r => if 48 ≤ c ∧ c ≤ 57 then some (c.toNat, r) else none | [] => none⟩

example : ∃ w w1, exCopySrc exTreeWorld = .ok 0 w ∧
    setAttrMain exEnv exScan1 b!"d" b!"z" b!"n" true (some b!"c8") 2 [b!"3 + 4 I", b!"1 + 2 I"] 500 exMem w = .ok .done w1 ∧
    OnDisk exEnv exKind w1.fs (pathJoin b!"d" b!"z")
      (exCopyA.withAttr b!"n" ⟨b!"<c8", 2, [51, 0, 0, 0, 52, 0, 0, 0, 49, 0, 0, 0, 50, 0, 0, 0]⟩) := by
  obtain ⟨w, e, nf, ht, h⟩ := exCopy_src
  have hchk : (exCopySrc exTreeWorld).fs?.map (fun fs => (fs.node (resolve b!"d")).isSome) = some true := by decide +kernel
  rw [e] at hchk
  obtain ⟨w1, e1, e2, _, _⟩ := C68_set_real_partial exEnv exScan1 exKind exCopyA b!"d" b!"z" b!"n" true b!"c8" b!"c8" 2 [b!"3 + 4 I", b!"1 + 2 I"]
    [[51, 0, 0, 0, 52, 0, 0, 0], [49, 0, 0, 0, 50, 0, 0, 0]] 500 exMem w nf (by decide) (by decide) (by injection hchk) h (by decide) (by decide)
    rfl (by
      intro p hp
      simp only [List.zip_cons_cons, List.zip_nil_right, List.mem_cons, List.not_mem_nil, or_false] at hp
      rcases hp with rfl | rfl
      · exact Denotes.c8 (m := exEnv.m) (sc := exScan1) b!"3 + 4 I" 51 b!"4 I" 52 b!" I" rfl rfl rfl
      · exact Denotes.c8 (m := exEnv.m) (sc := exScan1) b!"1 + 2 I" 49 b!"2 I" 50 b!" I" rfl rfl rfl)
    (by decide) (by decide) (by unfold Clean; decide) (by decide) (Or.inl rfl)
  exact ⟨w, w1, e, e1, e2⟩

/-- The example of `C68_roundtrip_partial`. -/
example : ∃ w w1 w2, exCopySrc exTreeWorld = .ok 0 w ∧
    setAttrMain exEnv exScan b!"d" b!"z" b!"n" true (some b!"i8") 2 [b!"-3", b!"9223372036854775807"] 500 exMem w = .ok .done w1 ∧
    getAttrMain exEnv b!"d" b!"z" false [b!"n"] w1 = .ok (.done, b!"-3 9223372036854775807\n") w2 := by
  obtain ⟨w, e, nf, ht, h⟩ := exCopy_src
  have hchk : (exCopySrc exTreeWorld).fs?.map (fun fs => (fs.node (resolve b!"d")).isSome) = some true := by decide +kernel
  rw [e] at hchk
  obtain ⟨w1, w2, e1, e2⟩ := C68_roundtrip_partial exEnv exScan exKind exCopyA b!"d" b!"z" b!"n" true b!"i8" .i8 [-3, 9223372036854775807] 500 exMem w nf
    (by decide) (by decide) (by simpa [Res.fs?] using hchk) h (by decide) (by decide)
    (by intro x hx; simp only [List.mem_cons, List.not_mem_nil, or_false] at hx; rcases hx with rfl | rfl <;> (unfold IntTy.holds; decide)) (by decide) (by decide)
    (by unfold Clean; decide) (by decide)
  exact ⟨w, w1, w2, e, e1, e2⟩

/-- Without `-t`, the dtype of the next attribute is used: `a` is of type `i4`, but is set as `u4`, the type of `b`. -/
theorem C68_alias : (exSetGet [(b!"b", some b!"u4", 1, [b!"7"]), (b!"a", none, 0, [b!"-5"])] true [b!"a"]).val? =
    some (.done, b!"a                    <u4   1  [ 4294967291 ]\n") := by decide +kernel

/-- Undefined? -/
def Spec.isUB {α : Type} : Res α → Bool
  | .ub => true
  | _ => false

/-- For the last attribute this is undefined. -/
theorem C68_alias_last : isUB (exSetGet [(b!"a", none, 0, [b!"-5"])] true [b!"a"]) = true := by decide +kernel

/-- Without `-n` the buffer of a new attribute overflows. -/
theorem C68_no_count : isUB (exSetGet [(b!"n", some b!"i4", 0, [b!"5"])] true [b!"n"]) = true := by decide +kernel

/-- Without `-t` the dtype of a new attribute is a NULL pointer. -/
theorem C68_no_dtype : isUB (exSetGet [(b!"n", none, 1, [b!"5"])] true [b!"n"]) = true := by decide +kernel

/-- A text that is no number is taken without complaint; what is stored was in the program's memory before. -/
theorem C68_not_a_number : (exSetGet [(b!"n", some b!"i4", 2, [b!"5", b!"x"])] false [b!"n"]).val? =
    some (.done, b!"5 " ++ intStr (i32 (natDec exEnv.m (peek exEnv.junk 0 4))) ++ b!"\n") := by decide +kernel

/-- A string is stored, but is not shown. -/
theorem C68_string : (exSetGet [(b!"n", some b!"S1", 3, [b!"hi"])] false [b!"n"]).val? = some (.done, b!"<<S1><<S1><<S1>\n") := by decide +kernel

/-- The example of `C68_get`: all attributes, in the order of their names. -/
example : (exSetGet [(b!"Z", some b!"u4", 1, [b!"7"])] false []).val? =
    some (.done, b!"Z                    <u4   1  [ 7 ]\na                    <i4   1  [ 10 ]\n") := by decide +kernel

/-- A name that is there and one that is not. -/
example : (exSetGet [] false [b!"a", b!"b"]).val? =
    some (.done, b!"a                    <i4   1  [ 10 ]\nb, not attr:\n") := by decide +kernel

/-- The example of `C68_count`. -/
example : (exSetGet [(b!"n", some b!"i4", 2, [b!"5"])] true [b!"n"]).val? = some (.failed, []) := by decide +kernel

/-- The example of `C68_unknown`: booleans cannot be set. -/
example : ∃ w w1, exCopySrc exTreeWorld = .ok 0 w ∧
    setAttrMain exEnv exScan b!"d" b!"z" b!"n" true (some b!"<b1") 1 [b!"1"] 500 exMem w = .ok .failed w1 ∧ w1.fs = w.fs := by
  obtain ⟨w, e, nf, ht, h⟩ := exCopy_src
  have hchk : (exCopySrc exTreeWorld).fs?.map (fun fs => (fs.node (resolve b!"d")).isSome) = some true := by decide +kernel
  rw [e] at hchk
  obtain ⟨w1, e1, f1⟩ := C68_unknown exEnv exScan exKind exCopyA b!"d" b!"z" b!"n" true 60 b!"b1" 1 [b!"1"] 500 exMem w nf
    (by decide) (by decide) (by simpa [Res.fs?] using hchk) h (by decide) (by decide) (by decide) (by decide) (by decide) (by decide)
    (by decide) (by decide)
  exact ⟨w, w1, e, e1, f1⟩

end Verif
