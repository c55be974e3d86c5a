import Verif.Spec.Block
import Verif.Proof.Path
import Verif.Proof.Seek
import Verif.Proof.WP
/-!
# Positional writes and rows
-/

set_option autoImplicit false

namespace Verif

open Spec

/-! ## `writeAt` -/

theorem writeAt_length (d : List Byte) (o : Nat) (bs : List Byte) (h : bs ≠ []) :
    (writeAt d o bs).length = max d.length (o + bs.length) := by
  unfold writeAt
  have : bs.isEmpty = false := by simpa using h
  rw [this]
  simp only [Bool.false_eq_true, if_false, List.length_append, List.length_take,
    List.length_replicate, List.length_drop]
  omega

theorem writeAt_get_in (d : List Byte) (o : Nat) (bs : List Byte) (x : Nat) (h1 : o ≤ x)
    (h2 : x < o + bs.length) : (writeAt d o bs)[x]? = bs[x - o]? := by
  have hne : bs ≠ [] := by intro h; rw [h] at h2; simp at h2; omega
  unfold writeAt
  have : bs.isEmpty = false := by simpa using hne
  rw [this]
  simp only [Bool.false_eq_true, if_false]
  rw [List.append_assoc, List.append_assoc]
  have hl : (d.take o).length + (List.replicate (o - d.length) (0 : Byte)).length = o := by
    simp only [List.length_take, List.length_replicate]; omega
  rw [List.getElem?_append_right (by omega), List.getElem?_append_right (by omega)]
  rw [List.getElem?_append_left (by omega)]
  congr 1
  omega

theorem writeAt_get_out (d : List Byte) (o : Nat) (bs : List Byte) (x : Nat)
    (h1 : x < o ∨ o + bs.length ≤ x) (h2 : x < d.length) : (writeAt d o bs)[x]? = d[x]? := by
  unfold writeAt
  split
  · rfl
  · rw [List.append_assoc, List.append_assoc]
    rcases h1 with h1 | h1
    · rw [List.getElem?_append_left (by simp; omega), List.getElem?_take, if_pos h1]
    · have hl : (d.take o).length + (List.replicate (o - d.length) (0 : Byte)).length = o := by
        simp only [List.length_take, List.length_replicate]; omega
      rw [List.getElem?_append_right (by omega), List.getElem?_append_right (by omega),
        List.getElem?_append_right (by omega), List.getElem?_drop]
      congr 1
      omega

theorem writeAt_get_gap (d : List Byte) (o : Nat) (bs : List Byte) (x : Nat) (hb : bs ≠ [])
    (h1 : x < o) (h2 : d.length ≤ x) : (writeAt d o bs)[x]? = some 0 := by
  unfold writeAt
  have : bs.isEmpty = false := by simpa using hb
  rw [this]
  simp only [Bool.false_eq_true, if_false]
  rw [List.append_assoc, List.append_assoc]
  rw [List.getElem?_append_right (by simp; omega), List.getElem?_append_left (by simp; omega)]
  rw [List.getElem?_replicate]
  simp only [List.length_take]
  rw [if_pos (by omega)]

theorem writeAt_get_none (d : List Byte) (o : Nat) (bs : List Byte) (x : Nat)
    (h1 : o + bs.length ≤ x) (h2 : d.length ≤ x) : (writeAt d o bs)[x]? = none := by
  apply List.getElem?_eq_none
  by_cases h : bs = []
  · subst h; rw [writeAt_nil]; exact h2
  · rw [writeAt_length _ _ _ h]; omega

/-- Two adjacent writes are one write. -/
theorem writeAt_append (d : List Byte) (o : Nat) (a b : List Byte) :
    writeAt (writeAt d o a) (o + a.length) b = writeAt d o (a ++ b) := by
  by_cases ha : a = []
  · subst ha; simp [writeAt_nil]
  by_cases hb : b = []
  · subst hb; simp [writeAt_nil]
  have hab : a ++ b ≠ [] := by simp [ha]
  have hla := writeAt_length d o a ha
  apply List.ext_getElem?
  intro x
  by_cases h1 : x < o
  · by_cases h2 : x < d.length
    · rw [writeAt_get_out _ _ _ _ (by omega) (by omega), writeAt_get_out _ _ _ _ (by omega) h2,
        writeAt_get_out _ _ _ _ (by omega) h2]
    · rw [writeAt_get_out _ _ _ _ (by omega) (by have := List.length_pos_iff.mpr ha; omega),
        writeAt_get_gap _ _ _ _ ha h1 (by omega), writeAt_get_gap _ _ _ _ hab h1 (by omega)]
  · by_cases h2 : x < o + a.length
    · rw [writeAt_get_out _ _ _ _ (by omega) (by omega), writeAt_get_in _ _ _ _ (by omega) h2,
        writeAt_get_in _ _ _ _ (by omega) (by rw [List.length_append]; omega),
        List.getElem?_append_left (by omega)]
    · by_cases h3 : x < o + a.length + b.length
      · rw [writeAt_get_in _ _ _ _ (by omega) h3,
          writeAt_get_in _ _ _ _ (by omega) (by rw [List.length_append]; omega),
          List.getElem?_append_right (by omega)]
        congr 1
        omega
      · by_cases h4 : x < d.length
        · rw [writeAt_get_out _ _ _ _ (by omega) (by omega), writeAt_get_out _ _ _ _ (by omega) h4,
            writeAt_get_out _ _ _ _ (by rw [List.length_append]; omega) h4]
        · rw [writeAt_get_none _ _ _ _ (by omega) (by omega),
            writeAt_get_none _ _ _ _ (by rw [List.length_append]; omega) (by omega)]

/-- Writes to disjoint ranges commute. -/
theorem writeAt_comm (d : List Byte) (o1 o2 : Nat) (a b : List Byte)
    (h : o1 + a.length ≤ o2 ∨ o2 + b.length ≤ o1) :
    writeAt (writeAt d o1 a) o2 b = writeAt (writeAt d o2 b) o1 a := by
  by_cases ha : a = []
  · subst ha; simp [writeAt_nil]
  by_cases hb : b = []
  · subst hb; simp [writeAt_nil]
  have hla := writeAt_length d o1 a ha
  have hlb := writeAt_length d o2 b hb
  have hpa := List.length_pos_iff.mpr ha
  have hpb := List.length_pos_iff.mpr hb
  apply List.ext_getElem?
  intro x
  by_cases h1 : o1 ≤ x ∧ x < o1 + a.length
  · rw [writeAt_get_in _ o1 _ _ h1.1 h1.2, writeAt_get_out _ o2 _ _ (by omega) (by omega),
      writeAt_get_in _ o1 _ _ h1.1 h1.2]
  by_cases h2 : o2 ≤ x ∧ x < o2 + b.length
  · rw [writeAt_get_in _ o2 _ _ h2.1 h2.2, writeAt_get_out _ o1 _ _ (by omega) (by omega),
      writeAt_get_in _ o2 _ _ h2.1 h2.2]
  by_cases h3 : x < d.length
  · rw [writeAt_get_out _ o2 _ _ (by omega) (by omega), writeAt_get_out _ o1 _ _ (by omega) h3,
      writeAt_get_out _ o1 _ _ (by omega) (by omega), writeAt_get_out _ o2 _ _ (by omega) h3]
  by_cases h4 : x < o1
  · by_cases h5 : x < o2
    · rw [writeAt_get_out _ o2 _ _ (by omega) (by omega), writeAt_get_gap _ o1 _ _ ha h4 (by omega),
        writeAt_get_out _ o1 _ _ (by omega) (by omega), writeAt_get_gap _ o2 _ _ hb h5 (by omega)]
    · rw [writeAt_get_out _ o2 _ _ (by omega) (by omega), writeAt_get_gap _ o1 _ _ ha h4 (by omega),
        writeAt_get_gap _ o1 _ _ ha (by omega) (by omega)]
  · by_cases h5 : x < o2
    · rw [writeAt_get_gap _ o2 _ _ hb h5 (by omega), writeAt_get_out _ o1 _ _ (by omega) (by omega),
        writeAt_get_gap _ o2 _ _ hb h5 (by omega)]
    · rw [writeAt_get_none _ o2 _ _ (by omega) (by omega),
        writeAt_get_none _ o1 _ _ (by omega) (by omega)]

theorem slice_writeAt_same (d : List Byte) (o : Nat) (bs : List Byte) :
    ((writeAt d o bs).drop o).take bs.length = bs := by
  apply List.ext_getElem?
  intro x
  rw [List.getElem?_take]
  split
  · rename_i h
    rw [List.getElem?_drop, writeAt_get_in _ _ _ _ (by omega) (by omega)]
    congr 1
    omega
  · rw [List.getElem?_eq_none (by omega)]

theorem slice_writeAt_other (d : List Byte) (o : Nat) (bs : List Byte) (o' n : Nat)
    (h : o' + n ≤ o ∨ o + bs.length ≤ o') (hl : o' + n ≤ d.length) :
    ((writeAt d o bs).drop o').take n = (d.drop o').take n := by
  apply List.ext_getElem?
  intro x
  rw [List.getElem?_take, List.getElem?_take]
  split
  · rename_i hx
    rw [List.getElem?_drop, List.getElem?_drop, writeAt_get_out _ _ _ _ (by omega) (by omega)]
  · rfl

/-! ## File-system level -/

theorem bytes_writeFile_same (fs : FS) (k : Key) (o : Nat) (bs : List Byte) (h : IsFile fs k) :
    (fs.writeFile k o bs).bytes k = writeAt (fs.bytes k) o bs := by
  obtain ⟨d, hd⟩ := h
  unfold FS.writeFile FS.bytes
  rw [hd]
  simp

theorem node_writeFile_other (fs : FS) (k k' : Key) (o : Nat) (bs : List Byte) (h : k' ≠ k) :
    (fs.writeFile k o bs).node k' = fs.node k' := by
  unfold FS.writeFile
  split
  · simp [h]
  · rfl

theorem bytes_writeFile_other (fs : FS) (k k' : Key) (o : Nat) (bs : List Byte) (h : k' ≠ k) :
    (fs.writeFile k o bs).bytes k' = fs.bytes k' := by
  unfold FS.bytes
  rw [node_writeFile_other _ _ _ _ _ h]

theorem writeFile_nofile (fs : FS) (k : Key) (o : Nat) (bs : List Byte) (h : ¬ IsFile fs k) :
    fs.writeFile k o bs = fs := by
  unfold FS.writeFile
  split
  · rename_i d hd; exact absurd ⟨d, hd⟩ h
  · rfl

theorem isFile_writeFile (fs : FS) (k k' : Key) (o : Nat) (bs : List Byte) :
    IsFile (fs.writeFile k o bs) k' ↔ IsFile fs k' := by
  by_cases hk : k' = k
  · subst hk
    by_cases hf : IsFile fs k'
    · have hf' := hf
      obtain ⟨d, hd⟩ := hf'
      unfold FS.writeFile
      rw [hd]
      simp only [hf, iff_true]
      exact ⟨writeAt d o bs, by simp⟩
    · rw [writeFile_nofile _ _ _ _ hf]
  · unfold IsFile
    rw [node_writeFile_other _ _ _ _ _ hk]

theorem dom_writeFile (fs : FS) (k : Key) (o : Nat) (bs : List Byte) :
    (fs.writeFile k o bs).dom = fs.dom := by
  unfold FS.writeFile
  split <;> rfl

theorem isDir_writeFile (fs : FS) (k k' : Key) (o : Nat) (bs : List Byte) :
    (fs.writeFile k o bs).node k' = some .dir ↔ fs.node k' = some .dir := by
  by_cases hk : k' = k
  · subst hk
    unfold FS.writeFile
    split
    · rename_i d hd; simp [hd]
    · rfl
  · rw [node_writeFile_other _ _ _ _ _ hk]

theorem writeFile_append (fs : FS) (k : Key) (o : Nat) (a b : List Byte) :
    (fs.writeFile k o a).writeFile k (o + a.length) b = fs.writeFile k o (a ++ b) := by
  by_cases hf : IsFile fs k
  · obtain ⟨d, hd⟩ := hf
    unfold FS.writeFile
    rw [hd]
    simp only [if_true]
    rw [FS.mk.injEq]
    refine ⟨?_, rfl⟩
    funext k'
    split
    · rw [writeAt_append]
    · rfl
  · rw [writeFile_nofile fs k _ _ hf, writeFile_nofile fs k _ _ hf, writeFile_nofile fs k _ _ hf]

/-- Positional writes to different files, or to disjoint ranges of the same file, commute. -/
theorem writeFile_comm (fs : FS) (k1 k2 : Key) (o1 o2 : Nat) (a b : List Byte)
    (h : k1 ≠ k2 ∨ o1 + a.length ≤ o2 ∨ o2 + b.length ≤ o1) :
    (fs.writeFile k1 o1 a).writeFile k2 o2 b = (fs.writeFile k2 o2 b).writeFile k1 o1 a := by
  by_cases h1 : IsFile fs k1
  · by_cases h2 : IsFile fs k2
    · obtain ⟨d1, hd1⟩ := h1
      obtain ⟨d2, hd2⟩ := h2
      by_cases hk : k1 = k2
      · subst hk
        have h : o1 + a.length ≤ o2 ∨ o2 + b.length ≤ o1 := by
          rcases h with h | h
          · exact absurd rfl h
          · exact h
        unfold FS.writeFile
        rw [hd1]
        simp only [if_true]
        rw [FS.mk.injEq]
        refine ⟨?_, rfl⟩
        funext k'
        split
        · rw [writeAt_comm _ _ _ _ _ h]
        · rfl
      · have hk' : ¬ k2 = k1 := fun h => hk h.symm
        unfold FS.writeFile
        rw [hd1, hd2]
        simp only [if_neg hk, if_neg hk', hd1, hd2]
        rw [FS.mk.injEq]
        refine ⟨?_, rfl⟩
        funext k'
        by_cases e1 : k' = k1
        · subst e1; simp [hk]
        · by_cases e2 : k' = k2
          · subst e2; simp [e1]
          · simp [e1, e2]
    · rw [writeFile_nofile fs k2 _ _ h2, writeFile_nofile _ k2]
      intro hc
      exact h2 ((isFile_writeFile _ _ _ _ _).mp hc)
  · rw [writeFile_nofile fs k1 _ _ h1, writeFile_nofile _ k1]
    intro hc
    exact h1 ((isFile_writeFile _ _ _ _ _).mp hc)

/-! ## Where rows live -/

theorem start_cons (s : Nat) (ss : List Nat) (f : Nat) : start (s :: ss) (f + 1) = s + start ss f := by
  simp [start]

theorem locate_start (fsize : List Nat) (r : Nat) :
    start fsize (locate fsize r).1 + (locate fsize r).2 = r := by
  induction fsize generalizing r with
  | nil => simp [locate, start]
  | cons s ss ih =>
    simp only [locate]
    split
    · simp [start_zero]
    · simp only [start_cons]
      have := ih (r - s)
      omega

theorem locate_inj {fsize : List Nat} {r r' : Nat} (h : locate fsize r = locate fsize r') : r = r' := by
  rw [← locate_start fsize r, ← locate_start fsize r', h]

theorem locate_lt (fsize : List Nat) (r : Nat) (h : r < fsize.sum) :
    (locate fsize r).1 < fsize.length ∧ r < start fsize ((locate fsize r).1 + 1) := by
  induction fsize generalizing r with
  | nil => simp at h
  | cons s ss ih =>
    simp only [locate]
    split
    · simp only [List.length_cons, start_cons]
      exact ⟨by omega, by omega⟩
    · simp only [List.sum_cons] at h
      obtain ⟨h1, h2⟩ := ih (r - s) (by omega)
      simp only [List.length_cons, start_cons]
      exact ⟨by omega, by omega⟩

theorem locate_unique (fsize : List Nat) (f r : Nat) (h1 : start fsize f ≤ r)
    (h2 : r < start fsize (f + 1)) : locate fsize r = (f, r - start fsize f) := by
  have h3 := locate_start fsize r
  have h5 := locate_lt fsize r (Nat.lt_of_lt_of_le h2 (start_le _ _))
  have h6 : start fsize (locate fsize r).1 ≤ r := by omega
  have hf : (locate fsize r).1 = f := by
    rcases Nat.lt_trichotomy (locate fsize r).1 f with hlt | heq | hgt
    · have := start_mono fsize (show (locate fsize r).1 + 1 ≤ f by omega); omega
    · exact heq
    · have := start_mono fsize (show f + 1 ≤ (locate fsize r).1 by omega); omega
  apply Prod.ext
  · exact hf
  · simp only
    rw [hf] at h3
    omega

/-! ## Rows after putting rows -/

theorem isFile_putRow (m : Machine) (bb : Block) (fs : FS) (r : Nat) (bs : List Byte) (k : Key) :
    IsFile (putRow m bb fs r bs) k ↔ IsFile fs k := isFile_writeFile _ _ _ _ _

theorem isFile_putRows (m : Machine) (bb : Block) (fs : FS) (p : Nat) (rows : Nat → List Byte)
    (n : Nat) (k : Key) : IsFile (putRows m bb fs p rows n) k ↔ IsFile fs k := by
  induction n with
  | zero => rfl
  | succ n ih => simp only [putRows]; rw [isFile_putRow, ih]

theorem row_putRow_same (m : Machine) (bb : Block) (fs : FS) (r : Nat) (bs : List Byte)
    (hf : IsFile fs (fileKey bb.basename (.data (rowFile bb r)))) (hl : bs.length = rowSize m bb) :
    row m (putRow m bb fs r bs) bb r = bs := by
  unfold row putRow
  rw [bytes_writeFile_same _ _ _ _ hf, ← hl, slice_writeAt_same]

theorem rowFile_eq_or_off (m : Machine) (bb : Block) (r r' : Nat) (h : r ≠ r') :
    rowFile bb r ≠ rowFile bb r' ∨ rowOff m bb r' + rowSize m bb ≤ rowOff m bb r ∨
      rowOff m bb r + rowSize m bb ≤ rowOff m bb r' := by
  by_cases hf : rowFile bb r = rowFile bb r'
  · right
    unfold rowFile at hf
    unfold rowOff
    have hi : (locate bb.fsize r).2 ≠ (locate bb.fsize r').2 := by
      intro he
      exact h (locate_inj (Prod.ext hf he))
    rcases Nat.lt_or_gt_of_ne hi with hlt | hgt
    · right
      have := Nat.mul_le_mul_right (rowSize m bb) (show (locate bb.fsize r).2 + 1 ≤ (locate bb.fsize r').2 from hlt)
      rw [Nat.add_mul] at this
      omega
    · left
      have := Nat.mul_le_mul_right (rowSize m bb) (show (locate bb.fsize r').2 + 1 ≤ (locate bb.fsize r).2 from hgt)
      rw [Nat.add_mul] at this
      omega
  · exact Or.inl hf

theorem dataKey_ne (bb : Block) (f f' : Nat) (h : f ≠ f') :
    fileKey bb.basename (.data f) ≠ fileKey bb.basename (.data f') := by
  intro hk
  have := fileKey_inj hk
  simp only [FileId.data.injEq] at this
  exact h this

theorem stored_len (m : Machine) (fs : FS) (bb : Block) (r : Nat) (hr : 0 < rowSize m bb) :
    Stored m fs bb r ↔ rowOff m bb r + rowSize m bb ≤
      (fs.bytes (fileKey bb.basename (.data (rowFile bb r)))).length := by
  unfold Stored row
  rw [List.length_take, List.length_drop]
  omega

theorem row_putRow_other (m : Machine) (bb : Block) (fs : FS) (r r' : Nat) (bs : List Byte)
    (h : r ≠ r') (hl : bs.length ≤ rowSize m bb) (hs : Stored m fs bb r') :
    row m (putRow m bb fs r bs) bb r' = row m fs bb r' := by
  rcases Nat.eq_zero_or_pos (rowSize m bb) with h0 | hpos
  · unfold row; rw [h0]; simp
  rw [stored_len m fs bb r' hpos] at hs
  unfold row putRow
  by_cases hf : rowFile bb r = rowFile bb r'
  · by_cases hF : IsFile fs (fileKey bb.basename (.data (rowFile bb r)))
    · rw [hf] at hF ⊢
      rw [bytes_writeFile_same _ _ _ _ hF]
      apply slice_writeAt_other
      · rcases rowFile_eq_or_off m bb r r' h with h1 | h1 | h1
        · exact absurd hf h1
        · omega
        · omega
      · exact hs
    · rw [writeFile_nofile _ _ _ _ hF]
  · rw [bytes_writeFile_other]
    exact dataKey_ne _ _ _ (fun e => hf e.symm)

theorem row_putRows_in (m : Machine) (bb : Block) (fs : FS) (p : Nat) (rows : Nat → List Byte)
    (n : Nat) (hl : ∀ i, i < n → (rows i).length = rowSize m bb)
    (hf : ∀ i, i < n → IsFile fs (fileKey bb.basename (.data (rowFile bb (p + i))))) :
    ∀ i, i < n → row m (putRows m bb fs p rows n) bb (p + i) = rows i := by
  induction n with
  | zero => intro i hi; omega
  | succ n ih =>
    intro i hi
    simp only [putRows]
    by_cases he : i = n
    · subst he
      apply row_putRow_same
      · rw [isFile_putRows]; exact hf i hi
      · exact hl i hi
    · have hrow := ih (fun j hj => hl j (by omega)) (fun j hj => hf j (by omega)) i (by omega)
      rw [row_putRow_other m bb _ _ _ _ (by omega) (by rw [hl n (by omega)]; omega), hrow]
      unfold Stored
      rw [hrow]
      exact hl i hi

theorem row_putRows_out (m : Machine) (bb : Block) (fs : FS) (p : Nat) (rows : Nat → List Byte)
    (n : Nat) (hl : ∀ i, i < n → (rows i).length ≤ rowSize m bb) (r : Nat)
    (hr : r < p ∨ p + n ≤ r) (hs : Stored m fs bb r) :
    row m (putRows m bb fs p rows n) bb r = row m fs bb r := by
  induction n with
  | zero => rfl
  | succ n ih =>
    have hrow := ih (fun j hj => hl j (by omega)) (by omega)
    simp only [putRows]
    rw [row_putRow_other m bb _ _ _ _ (by omega) (hl n (by omega)), hrow]
    unfold Stored
    rw [hrow]
    exact hs

/-- Nothing but the data files of the written rows changes. -/
theorem node_putRows_other (m : Machine) (bb : Block) (fs : FS) (p : Nat) (rows : Nat → List Byte)
    (n : Nat) (k : Key) (hk : ∀ i, i < n → k ≠ fileKey bb.basename (.data (rowFile bb (p + i)))) :
    (putRows m bb fs p rows n).node k = fs.node k := by
  induction n with
  | zero => rfl
  | succ n ih =>
    simp only [putRows]
    unfold putRow
    rw [node_writeFile_other _ _ _ _ _ (hk n (by omega)), ih (fun i hi => hk i (by omega))]

theorem dom_putRows (m : Machine) (bb : Block) (fs : FS) (p : Nat) (rows : Nat → List Byte)
    (n : Nat) : (putRows m bb fs p rows n).dom = fs.dom := by
  induction n with
  | zero => rfl
  | succ n ih => simp only [putRows]; unfold putRow; rw [dom_writeFile, ih]

/-! ## Concatenation -/

theorem flatN_length (g : Nat → List Byte) (n L : Nat) (h : ∀ i, i < n → (g i).length = L) :
    (flatN g n).length = n * L := by
  induction n with
  | zero => simp [flatN]
  | succ n ih =>
    simp only [flatN, List.length_append]
    rw [ih (fun i hi => h i (by omega)), h n (by omega), Nat.add_mul, Nat.one_mul]

theorem flatN_congr {g g' : Nat → List Byte} {n : Nat} (h : ∀ i, i < n → g i = g' i) :
    flatN g n = flatN g' n := by
  induction n with
  | zero => rfl
  | succ n ih =>
    simp only [flatN]
    rw [ih (fun i hi => h i (by omega)), h n (by omega)]

theorem flatN_add (g : Nat → List Byte) (a b : Nat) :
    flatN g (a + b) = flatN g a ++ flatN (fun i => g (a + i)) b := by
  induction b with
  | zero => simp [flatN]
  | succ b ih =>
    rw [← Nat.add_assoc]
    simp only [flatN]
    rw [ih, List.append_assoc]

theorem flatN_mul (g : Nat → List Byte) (c b : Nat) :
    flatN (fun i => flatN (fun j => g (i * b + j)) b) c = flatN g (c * b) := by
  induction c with
  | zero => simp [flatN]
  | succ c ih =>
    simp only [flatN]
    rw [ih, Nat.add_mul, Nat.one_mul, flatN_add]

theorem peek_flatN (mem : Mem) (a : Int) (w n : Nat) :
    peek mem a (n * w) = flatN (fun i => peek mem (a + (i * w : Nat)) w) n := by
  induction n with
  | zero => simp [flatN, peek]
  | succ n ih =>
    simp only [flatN]
    rw [Nat.add_mul, Nat.one_mul, peek_add, ih]

/-- Taking the `i`-th piece out of a concatenation. -/
theorem flatN_piece (g : Nat → List Byte) (n L : Nat) (h : ∀ i, i < n → (g i).length = L) (i : Nat)
    (hi : i < n) : ((flatN g n).drop (i * L)).take L = g i := by
  have e : n = i + (1 + (n - i - 1)) := by omega
  rw [e, flatN_add, flatN_add]
  have h1 : (flatN g i).length = i * L := flatN_length g i L (fun j hj => h j (by omega))
  rw [List.drop_append, List.drop_of_length_le (by omega), h1, Nat.sub_self, List.drop_zero,
    List.nil_append]
  have h2 : flatN (fun j => g (i + j)) 1 = g i := by simp [flatN]
  rw [h2, List.take_append, h i hi, Nat.sub_self, List.take_zero, List.append_nil,
    List.take_of_length_le (by rw [h i hi]; omega)]

/-! ## A chunk of rows -/

/-- One positional write of consecutive rows of the same file is the same as putting the rows one by
one. -/
theorem chunk_putRows (m : Machine) (bb : Block) (fs : FS) (f i0 c : Nat) (rows : Nat → List Byte)
    (hl : ∀ i, i < c → (rows i).length = rowSize m bb)
    (hfit : start bb.fsize f + i0 + c ≤ start bb.fsize (f + 1)) :
    fs.writeFile (fileKey bb.basename (.data f)) (i0 * rowSize m bb) (flatN rows c) =
      putRows m bb fs (start bb.fsize f + i0) rows c := by
  induction c with
  | zero => simp only [flatN, putRows]; exact writeFile_nil _ _ _
  | succ c ih =>
    simp only [flatN, putRows]
    rw [← ih (fun i hi => hl i (by omega)) (by omega)]
    unfold putRow
    have hloc := locate_unique bb.fsize f (start bb.fsize f + i0 + c) (by omega) (by omega)
    have hrf : rowFile bb (start bb.fsize f + i0 + c) = f := by unfold rowFile; rw [hloc]
    have hro : rowOff m bb (start bb.fsize f + i0 + c) = i0 * rowSize m bb + (flatN rows c).length := by
      unfold rowOff
      rw [hloc, flatN_length rows c (rowSize m bb) (fun i hi => hl i (by omega)), ← Nat.add_mul]
      simp only
      congr 1
      omega
    rw [hrf, hro, writeFile_append]

/-- A part of a positional write of consecutive rows. -/
theorem chunk_torn (m : Machine) (bb : Block) (fs : FS) (f i0 c k : Nat) (rows : Nat → List Byte)
    (hl : ∀ i, i < c → (rows i).length = rowSize m bb)
    (hfit : start bb.fsize f + i0 + c ≤ start bb.fsize (f + 1)) :
    Torn m bb fs (fs.writeFile (fileKey bb.basename (.data f)) (i0 * rowSize m bb)
      ((flatN rows c).take k)) (start bb.fsize f + i0) rows c := by
  induction c with
  | zero =>
    refine ⟨0, 0, by omega, fun _ => rfl, ?_⟩
    simp only [flatN, putRows, List.take_nil, List.take_zero]
    unfold putRow
    rw [writeFile_nil, writeFile_nil]
  | succ c ih =>
    have hlen := flatN_length rows c (rowSize m bb) (fun i hi => hl i (by omega))
    by_cases hk : k ≤ (flatN rows c).length
    · simp only [flatN]
      rw [List.take_append_of_le_length hk]
      obtain ⟨j, k', h1, h2, h3⟩ := ih (fun i hi => hl i (by omega)) (by omega)
      refine ⟨j, k', by omega, by omega, ?_⟩
      exact h3
    · have hloc := locate_unique bb.fsize f (start bb.fsize f + i0 + c) (by omega) (by omega)
      have hrf : rowFile bb (start bb.fsize f + i0 + c) = f := by unfold rowFile; rw [hloc]
      have hro : rowOff m bb (start bb.fsize f + i0 + c) = i0 * rowSize m bb + (flatN rows c).length := by
        unfold rowOff
        rw [hloc, hlen, ← Nat.add_mul]
        simp only
        congr 1
        omega
      refine ⟨c, k - (flatN rows c).length, by omega, by omega, ?_⟩
      rw [← chunk_putRows m bb fs f i0 c rows (fun i hi => hl i (by omega)) (by omega)]
      unfold putRow
      rw [hrf, hro, writeFile_append]
      simp only [flatN]
      rw [List.take_append, List.take_of_length_le (by omega)]

theorem putRows_add (m : Machine) (bb : Block) (fs : FS) (p : Nat) (rows : Nat → List Byte) (a b : Nat) :
    putRows m bb fs p rows (a + b) =
      putRows m bb (putRows m bb fs p rows a) (p + a) (fun i => rows (a + i)) b := by
  induction b with
  | zero => rfl
  | succ b ih =>
    rw [← Nat.add_assoc]
    simp only [putRows]
    rw [ih, Nat.add_assoc]

theorem torn_after (m : Machine) (bb : Block) (fs fs' : FS) (p : Nat) (rows : Nat → List Byte)
    (a b : Nat) (h : Torn m bb (putRows m bb fs p rows a) fs' (p + a) (fun i => rows (a + i)) b) :
    Torn m bb fs fs' p rows (a + b) := by
  obtain ⟨j, k, h1, h2, h3⟩ := h
  refine ⟨a + j, k, by omega, by omega, ?_⟩
  rw [h3, ← putRows_add, Nat.add_assoc]

theorem torn_mono (m : Machine) (bb : Block) (fs fs' : FS) (p : Nat) (rows : Nat → List Byte)
    (a b : Nat) (hab : a ≤ b) (h : Torn m bb fs fs' p rows a) : Torn m bb fs fs' p rows b := by
  obtain ⟨j, k, h1, h2, h3⟩ := h
  exact ⟨j, k, by omega, by omega, h3⟩

theorem torn_refl (m : Machine) (bb : Block) (fs : FS) (p : Nat) (rows : Nat → List Byte) (n : Nat) :
    Torn m bb fs fs p rows n :=
  ⟨0, 0, by omega, fun _ => rfl, by
    simp only [putRows, List.take_zero]; unfold putRow; rw [writeFile_nil]⟩

end Verif
