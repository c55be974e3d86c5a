import Verif.Model.Pack
import Verif.Proof.Reopen
import Verif.Proof.Read
import Verif.Props.AttrDisk
/-!
# C34: a handle survives being sent to another process
-/

set_option autoImplicit false

namespace Verif

open Spec

theorem encArr_length (m : Machine) (w : Nat) (xs : List Nat) : (encArr m w xs).length = xs.length * w := by
  induction xs with
  | nil => simp [encArr]
  | cons x xs ih =>
    unfold encArr at ih ⊢
    rw [List.flatMap_cons, List.length_append, ih, natEnc_length, List.length_cons, Nat.succ_mul]
    omega

theorem decArr_encArr (m : Machine) (w : Nat) (xs : List Nat) (hx : ∀ x ∈ xs, x < 256 ^ w) (rest : List Byte) :
    decArr m w xs.length (encArr m w xs ++ rest) = xs := by
  induction xs with
  | nil => rfl
  | cons x xs ih =>
    have h1 : encArr m w (x :: xs) ++ rest = natEnc m w x ++ (encArr m w xs ++ rest) := by
      unfold encArr; rw [List.flatMap_cons, List.append_assoc]
    rw [List.length_cons, decArr, h1]
    have h2 := natEnc_length m w x
    rw [List.take_left' h2, List.drop_left' h2, natDec_natEnc,
      Nat.mod_eq_of_lt (hx x (by simp)), ih (fun y hy => hx y (List.mem_cons_of_mem _ hy))]

theorem packArr_length (env : Env) (w n : Nat) (xs : List Nat) (b : Bool) (h : xs.length ≤ n) :
    (packArr env w n xs b).length = n * w := by
  unfold packArr
  split
  · exact peek_length _ _ _
  · rw [encArr_length, List.length_append, List.length_replicate]
    congr 1; omega

theorem packArr_read (env : Env) (w n : Nat) (xs : List Nat) (h : xs.length ≤ n)
    (hx : ∀ x ∈ xs, x < 256 ^ w) (rest : List Byte) :
    decArr env.m w n (packArr env w n xs false ++ rest) = xs ++ List.replicate (n - xs.length) 0 := by
  have hlen : (xs ++ List.replicate (n - xs.length) 0).length = n := by
    rw [List.length_append, List.length_replicate]; omega
  have := decArr_encArr env.m w (xs ++ List.replicate (n - xs.length) 0) (by
    intro x hx'
    rcases List.mem_append.mp hx' with h' | h'
    · exact hx x h'
    · rw [(List.mem_replicate.mp h').2]; exact Nat.pow_pos (by omega)) rest
  rw [hlen] at this
  exact this

/-- The attribute set on the other side represents the same entries. -/
theorem unpackAttrs_inv (env env' : Env) {s : AttrSet} {es : List Entry} (h : AttrInv env.m s es) :
    AttrInv env.m (unpackAttrs env' (packAttrs s).1 (packAttrs s).2.1 (packAttrs s).2.2) es := by
  refine ⟨?_, ?_, h.sorted, h.disj, h.used, h.size⟩
  · simp only [unpackAttrs, packAttrs]
    rw [List.take_of_length_le (by simp), h.list, List.map_map, List.map_map]
    apply List.map_congr_left
    intro e _
    simp only [Function.comp, Entry.attr, Attr.mk.injEq, true_and]
    constructor <;> omega
  · intro e he
    refine (h.ok e he).keep (Nat.le_refl _) ?_
    intro i hi
    have hin := (h.ok e he).inside
    simp only [unpackAttrs, packAttrs]
    rw [List.take_of_length_le (by rw [peek_length]; exact Nat.le_refl _)]
    have h1 := peek_poke_sub env'.junk (env'.heap s.bufsize) (peek s.buf s.base s.bufused) (e.off + i) 1
      (by rw [peek_length]; omega)
    rw [peek_drop_take _ _ _ _ _ (by omega)] at h1
    have e1 : env'.heap s.bufsize + ((e.off + i : Nat) : Int) = env'.heap s.bufsize + e.off + i := by omega
    have e2 : s.base + ((e.off + i : Nat) : Int) = s.base + e.off + i := by omega
    rw [e1, e2] at h1
    simpa [peek] using h1

theorem le_sum_of_mem' {xs : List Nat} {x : Nat} (h : x ∈ xs) : x ≤ xs.sum := by
  induction xs with
  | nil => simp at h
  | cons y ys ih =>
    rw [List.sum_cons]
    rcases List.mem_cons.mp h with rfl | h
    · omega
    · have := ih h; omega

/-- What both sides agree on. -/
structure SameHandle (m : Machine) (bb bb' : Block) : Prop where
  shape : bb'.dtype = bb.dtype ∧ bb'.nmemb = bb.nmemb ∧ bb'.basename = bb.basename ∧ bb'.size = bb.size ∧
    bb'.nfile = bb.nfile
  files : bb'.fsize = bb.fsize ∧ bb'.fchecksum = bb.fchecksum
  dirty : bb'.dirty = bb.dirty ∧ bb'.attrset.dirty = bb.attrset.dirty
  well : WellAttrs m bb'.attrset
  attrs : attrView m bb'.attrset = attrView m bb.attrset
  order : (listAttrs bb'.attrset).map (fun a => (bb'.attrset.nameOf a, a.dtype, a.nmemb)) =
    (listAttrs bb.attrset).map (fun a => (bb.attrset.nameOf a, a.dtype, a.nmemb))

theorem AttrInv.listing {m : Machine} {s : AttrSet} {es : List Entry} (h : AttrInv m s es) :
    (listAttrs s).map (fun a => (s.nameOf a, a.dtype, a.nmemb)) =
      es.map fun e => (e.name, e.val.dtype, (e.val.nmemb : Int)) := by
  unfold listAttrs
  rw [h.list, List.map_map]
  apply List.map_congr_left
  intro e he
  have := (h.ok e he).nameOf
  simp only [Function.comp]
  rw [this]
  rfl

theorem takeWhile_name (name rest : CStr) (h : (0 : Byte) ∉ name) :
    (name ++ [0] ++ rest).takeWhile (· ≠ 0) = name ∧ (name ++ [0] ++ rest).drop (name.length + 1) = rest := by
  refine ⟨?_, ?_⟩
  · rw [List.append_assoc, List.takeWhile_append_of_pos]
    · simp
    · intro c hc
      simp only [ne_eq, decide_not, Bool.not_eq_eq_eq_not, Bool.not_true, decide_eq_false_iff_not]
      rintro rfl; exact h hc
  · rw [List.drop_left' (by simp)]

/-- **C34.** Whatever handle is packed in one process and unpacked in another one (of the same kind of
machine, with other memory contents and other addresses), the result has the same dtype, layout, name,
checksums, dirty flags and attributes, listed in the same order. -/
theorem C34_pack_unpack (env env' : Env) (bb : Block) (hm : env'.m = env.m) (hl : Layout bb)
    (hname : (0 : Byte) ∉ bb.basename) (hlen : bb.basename.length ≤ 8192) (ha : WellAttrs env.m bb.attrset) :
    SameHandle env.m bb (blockUnpack env' (blockPack env bb)) ∧
    (blockUnpack env' (blockPack env bb)).foffset = bb.foffset := by
  obtain ⟨es, hes⟩ := ha
  have hinv := unpackAttrs_inv env env' hes
  have hfl : bb.foffset.length = bb.nfile + 1 := by rw [hl.foff]; simp
  have hnull : bb.foffset.isEmpty = false := by
    cases hf : bb.foffset with
    | nil => rw [hf] at hfl; simp at hfl
    | cons a l => rfl
  have hsz : ∀ x ∈ bb.fsize, x < 256 ^ 8 := by
    intro x hx
    have h1 : x ≤ bb.fsize.sum := le_sum_of_mem' hx
    have := hl.small
    have : (256 : Nat) ^ 8 = 18446744073709551616 := by decide
    omega
  have hof : ∀ x ∈ bb.foffset, x < 256 ^ 8 := by
    intro x hx
    rw [hl.foff] at hx
    obtain ⟨f, _, rfl⟩ := List.mem_map.mp hx
    have h1 : start bb.fsize f ≤ bb.fsize.sum := by
      unfold start
      have := congrArg List.sum (List.take_append_drop f bb.fsize)
      rw [List.sum_append] at this
      omega
    have := hl.small
    have : (256 : Nat) ^ 8 = 18446744073709551616 := by decide
    omega
  have hck : ∀ x ∈ bb.fchecksum, x < 256 ^ 4 := by
    intro x hx
    have := hl.ck32 x hx
    have : (256 : Nat) ^ 4 = 4294967296 := by decide
    omega
  have hA := packArr_length env 8 (bb.nfile + 1) bb.fsize false (by rw [hl.nfile]; omega)
  have hB := packArr_length env 8 (bb.nfile + 1) bb.foffset false (by omega)
  have hbody : (blockPack env bb).body = bb.basename ++ [0] ++ (packArr env 8 (bb.nfile + 1) bb.fsize false ++
      (packArr env 8 (bb.nfile + 1) bb.foffset false ++ packArr env 4 (bb.nfile + 1) bb.fchecksum false)) := by
    simp only [blockPack, packAttrs, hnull, List.append_assoc]
  obtain ⟨t1, t2⟩ := takeWhile_name bb.basename (packArr env 8 (bb.nfile + 1) bb.fsize false ++
      (packArr env 8 (bb.nfile + 1) bb.foffset false ++ packArr env 4 (bb.nfile + 1) bb.fchecksum false)) hname
  rw [← hbody] at t1 t2
  have himg : (blockPack env bb).img = ⟨bb.dtype, bb.nmemb, bb.size, bb.nfile, bb.dirty⟩ := rfl
  have hz : (packArr env 4 (bb.nfile + 1) bb.fchecksum false) =
    packArr env 4 (bb.nfile + 1) bb.fchecksum false ++ [] := by simp
  refine ⟨⟨?_, ?_, ?_, ?_, ?_, ?_⟩, ?_⟩
  · simp only [blockUnpack, himg, t1, strdup, List.take_of_length_le hlen, and_self]
  · simp only [blockUnpack, himg, t1, t2, hm]
    refine ⟨?_, ?_⟩
    · rw [packArr_read _ _ _ _ (by rw [hl.nfile]; omega) hsz, List.take_left' hl.nfile]
    · rw [← List.drop_drop, List.drop_left' hA, List.drop_left' hB, hz,
        packArr_read _ _ _ _ (by rw [hl.nck]; omega) hck, List.take_left' hl.nck]
  · exact ⟨rfl, rfl⟩
  · exact ⟨es, hinv⟩
  · exact hinv.view_eq.trans hes.view_eq.symm
  · exact hinv.listing.trans hes.listing.symm
  · simp only [blockUnpack, himg, t1, t2, hm]
    rw [List.drop_left' hA, packArr_read _ _ _ _ (by omega) hof, hfl]
    simp

/-- **C34, blocks that only hold attributes.** They have no arrays; the arrays on the other side hold one
number that nobody initialised. -/
theorem C34_meta (env env' : Env) (bb : Block) (hn : bb.nfile = 0) (hf : bb.fsize = [] ∧ bb.foffset = [] ∧ bb.fchecksum = [])
    (hname : (0 : Byte) ∉ bb.basename) (hlen : bb.basename.length ≤ 8192) (ha : WellAttrs env.m bb.attrset) :
    SameHandle env.m bb (blockUnpack env' (blockPack env bb)) ∧
    (blockUnpack env' (blockPack env bb)).foffset.length = 1 := by
  obtain ⟨es, hes⟩ := ha
  have hinv := unpackAttrs_inv env env' hes
  obtain ⟨rest, hbody⟩ : ∃ rest, (blockPack env bb).body = bb.basename ++ [0] ++ rest := by
    simp only [blockPack, List.append_assoc]
    exact ⟨_, rfl⟩
  obtain ⟨t1, t2⟩ := takeWhile_name bb.basename rest hname
  rw [← hbody] at t1 t2
  have himg : (blockPack env bb).img = ⟨bb.dtype, bb.nmemb, bb.size, bb.nfile, bb.dirty⟩ := rfl
  refine ⟨⟨?_, ?_, ?_, ?_, ?_, ?_⟩, ?_⟩
  · simp only [blockUnpack, himg, t1, strdup, List.take_of_length_le hlen, and_self]
  · simp only [blockUnpack, himg, hn, hf, List.take_zero, and_self]
  · exact ⟨rfl, rfl⟩
  · exact ⟨es, hinv⟩
  · exact hinv.view_eq.trans hes.view_eq.symm
  · exact hinv.listing.trans hes.listing.symm
  · simp only [blockUnpack, himg, hn, decArr, List.length_cons, List.length_nil]

/-- A receiver with other addresses and other garbage. -/
def exEnv2 : Env := { exEnv with heap := fun n => (7 * n + 13 : Nat), junk := fun x => UInt8.ofNat (x % 251).toNat }

/-- `exB` with an attribute. -/
def exBAttr : Option Block := (setAttr exEnv exB.attrset b!"mass" 0 b!"i4" 2 (poke exEnv.junk 0 [1, 2, 3, 4, 5, 6, 7, 8])).map
  fun r => { exB with attrset := r.2.1 }

example : exBAttr.map (fun b => (attrView exEnv.m (blockUnpack exEnv2 (blockPack exEnv b)).attrset b!"mass",
    (blockUnpack exEnv2 (blockPack exEnv b)).fsize, (blockUnpack exEnv2 (blockPack exEnv b)).foffset)) =
    some (some ⟨b!"<i4", 2, [1, 2, 3, 4, 5, 6, 7, 8]⟩, [2, 0, 3], [0, 2, 2, 5]) := by decide +kernel

example : SameHandle exEnv.m exB (blockUnpack exEnv2 (blockPack exEnv exB)) ∧
    (blockUnpack exEnv2 (blockPack exEnv exB)).foffset = exB.foffset :=
  C34_pack_unpack exEnv exEnv2 exB rfl ⟨by decide, by decide, by decide, by decide, by decide, by decide⟩ (by decide)
    (by decide) ⟨[], attrsetCreate_inv exEnv⟩

end Verif
