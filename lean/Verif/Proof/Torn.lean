import Verif.Proof.Transfer
/-!
# What an interrupted write leaves behind
-/

set_option autoImplicit false

namespace Verif

open Spec

theorem stored_isFile (m : Machine) (fs : FS) (bb : Block) (r : Nat) (hr : 0 < rowSize m bb)
    (h : Stored m fs bb r) : IsFile fs (fileKey bb.basename (.data (rowFile bb r))) := by
  rw [stored_len m fs bb r hr] at h
  unfold FS.bytes at h
  split at h
  · rename_i d hd; exact ⟨d, hd⟩
  · simp at h; omega

theorem row_putRow_prefix (m : Machine) (bb : Block) (fs : FS) (r : Nat) (bs : List Byte)
    (hr : 0 < rowSize m bb) (hl : bs.length ≤ rowSize m bb) (hs : Stored m fs bb r) :
    row m (putRow m bb fs r bs) bb r = bs ++ (row m fs bb r).drop bs.length := by
  have hf := stored_isFile m fs bb r hr hs
  have hlen := (stored_len m fs bb r hr).mp hs
  unfold row putRow
  rw [bytes_writeFile_same _ _ _ _ hf]
  generalize fs.bytes (fileKey bb.basename (.data (rowFile bb r))) = d at *
  generalize rowOff m bb r = o at *
  apply List.ext_getElem?
  intro x
  rw [List.getElem?_take]
  by_cases hx : x < bs.length
  · rw [List.getElem?_append_left hx, if_pos (by omega), List.getElem?_drop,
      writeAt_get_in _ _ _ _ (by omega) (by omega)]
    congr 1; omega
  · have e : bs.length + (x - bs.length) = x := by omega
    rw [List.getElem?_append_right (by omega), List.getElem?_drop, List.getElem?_drop, e,
      List.getElem?_take]
    split
    · rw [List.getElem?_drop, writeAt_get_out _ _ _ _ (by omega) (by omega)]
    · rfl

theorem torn_rows_out (m : Machine) (bb : Block) (fs fs' : FS) (p n : Nat) (rows : Nat → List Byte)
    (h : Torn m bb fs fs' p rows n) (hl : ∀ i, i < n → (rows i).length ≤ rowSize m bb) (r : Nat)
    (hr : r < p ∨ p + n ≤ r) (hs : Stored m fs bb r) : row m fs' bb r = row m fs bb r := by
  obtain ⟨j, k, h1, h2, h3⟩ := h
  have e := row_putRows_out m bb fs p rows j (fun i hi => hl i (by omega)) r (by omega) hs
  by_cases hj : j = n
  · have hk := h2 hj
    subst hk
    rw [h3, List.take_zero]
    unfold putRow
    rw [writeFile_nil, e]
  · rw [h3, row_putRow_other m bb _ _ _ _ (by omega) ?_ ?_, e]
    · have := hl j (by omega)
      rw [List.length_take]; omega
    · unfold Stored; rw [e]; exact hs

theorem torn_node_other (m : Machine) (bb : Block) (fs fs' : FS) (p n : Nat) (rows : Nat → List Byte)
    (h : Torn m bb fs fs' p rows n) (k : Key)
    (hk : ∀ i, i < n → k ≠ fileKey bb.basename (.data (rowFile bb (p + i)))) :
    fs'.node k = fs.node k := by
  obtain ⟨j, t, h1, h2, h3⟩ := h
  have e := node_putRows_other m bb fs p rows j k (fun i hi => hk i (by omega))
  by_cases hj : j = n
  · have ht := h2 hj
    subst ht
    rw [h3, List.take_zero]
    unfold putRow
    rw [writeFile_nil, e]
  · rw [h3]
    unfold putRow
    rw [node_writeFile_other _ _ _ _ _ (hk j (by omega)), e]

theorem torn_row_in (m : Machine) (bb : Block) (fs fs' : FS) (p n : Nat) (rows : Nat → List Byte)
    (hrs : 0 < rowSize m bb)
    (h : Torn m bb fs fs' p rows n) (hl : ∀ i, i < n → (rows i).length = rowSize m bb) (i : Nat)
    (hi : i < n) (hs : Stored m fs bb (p + i)) :
    ∃ k, row m fs' bb (p + i) = (rows i).take k ++ (row m fs bb (p + i)).drop k := by
  obtain ⟨j, t, h1, h2, h3⟩ := h
  -- one complete row at a time
  have hfull : ∀ q, q ≤ n → Stored m (putRows m bb fs p rows q) bb (p + i) ∧
      row m (putRows m bb fs p rows q) bb (p + i) = if i < q then rows i else row m fs bb (p + i) := by
    intro q
    induction q with
    | zero => intro _; exact ⟨hs, by simp [putRows]⟩
    | succ q ih =>
      intro hq
      obtain ⟨g1, g2⟩ := ih (by omega)
      simp only [putRows]
      have hrow : row m (putRow m bb (putRows m bb fs p rows q) (p + q) (rows q)) bb (p + i) =
          if i < q + 1 then rows i else row m fs bb (p + i) := by
        by_cases hiq : i = q
        · subst hiq
          rw [row_putRow_same m bb _ _ _ (stored_isFile m _ bb _ hrs g1) (hl i hi), if_pos (by omega)]
        · rw [row_putRow_other m bb _ _ _ _ (by omega) (by rw [hl q (by omega)]; exact Nat.le_refl _) g1, g2]
          by_cases hlt : i < q
          · rw [if_pos hlt, if_pos (by omega)]
          · rw [if_neg hlt, if_neg (by omega)]
      refine ⟨?_, hrow⟩
      unfold Stored
      rw [hrow]
      split
      · exact hl i hi
      · exact hs
  obtain ⟨g1, g2⟩ := hfull j h1
  by_cases hj : j = n
  · have ht := h2 hj
    subst ht
    refine ⟨rowSize m bb, ?_⟩
    rw [h3, List.take_zero]
    unfold putRow
    rw [writeFile_nil, g2, if_pos (by omega), List.take_of_length_le (by rw [hl i hi]; exact Nat.le_refl _),
      List.drop_of_length_le (by rw [show (row m fs bb (p + i)).length = rowSize m bb from hs]; exact Nat.le_refl _)]
    simp
  · have hlj := hl j (by omega)
    by_cases hij : i = j
    · subst hij
      refine ⟨min t (rowSize m bb), ?_⟩
      rw [h3, row_putRow_prefix m bb _ _ _ hrs (by rw [List.length_take]; omega) g1, g2, if_neg (by omega),
        List.length_take, hl i hi]
      congr 1
      rcases Nat.le_total t (rowSize m bb) with hle | hle
      · rw [Nat.min_eq_left hle]
      · rw [Nat.min_eq_right hle, List.take_of_length_le (by omega), List.take_of_length_le (by omega)]
    · rw [h3, row_putRow_other m bb _ _ _ _ (by omega) (by rw [List.length_take]; omega) g1, g2]
      split
      · refine ⟨rowSize m bb, ?_⟩
        rw [List.take_of_length_le (by rw [hl i hi]; exact Nat.le_refl _),
          List.drop_of_length_le (by rw [show (row m fs bb (p + i)).length = rowSize m bb from hs]; exact Nat.le_refl _)]
        simp
      · exact ⟨0, by simp⟩

/-- A complete write is a torn write with nothing missing. -/
theorem torn_putRows (m : Machine) (bb : Block) (fs : FS) (p n : Nat) (rows : Nat → List Byte) :
    Torn m bb fs (putRows m bb fs p rows n) p rows n := by
  refine ⟨n, 0, Nat.le_refl _, fun _ => rfl, ?_⟩
  rw [List.take_zero]
  unfold putRow
  rw [writeFile_nil]

/-- Element `e` of the rows just put. -/
theorem elemOfRows_putRows (m : Machine) (bb : Block) (fs : FS) (p n w nm : Nat) (out : Nat → List Byte)
    (hrs : rowSize m bb = w * nm) (hnm : 0 < nm) (hout : ∀ e, e < n * nm → (out e).length = w)
    (hf : ∀ i, i < n → IsFile fs (fileKey bb.basename (.data (rowFile bb (p + i))))) (e : Nat)
    (he : e < n * nm) :
    elemOfRows m (putRows m bb fs p (rowOfElems out nm) n) bb p w nm e = out e := by
  have hi : e / nm < n := (Nat.div_lt_iff_lt_mul hnm).mpr he
  have hmul : ∀ i j, i < n → j < nm → i * nm + j < n * nm := by
    intro i j hi hj
    have := Nat.mul_le_mul_right nm (show i + 1 ≤ n from hi)
    rw [Nat.add_mul] at this
    omega
  have hlen : ∀ i, i < n → (rowOfElems out nm i).length = rowSize m bb := by
    intro i hi
    unfold rowOfElems
    rw [flatN_length _ nm w (fun j hj => hout _ (hmul i j hi hj)), hrs, Nat.mul_comm]
  unfold elemOfRows
  rw [row_putRows_in m bb fs p _ n hlen hf _ hi]
  unfold rowOfElems
  rw [flatN_piece _ nm w (fun j hj => hout _ (hmul _ j hi hj)) _ (Nat.mod_lt _ hnm)]
  congr 1
  rw [Nat.mul_comm]
  exact Nat.div_add_mod e nm

theorem rowOfElems_length (out : Nat → List Byte) (w nm n : Nat)
    (hout : ∀ e, e < n * nm → (out e).length = w) (i : Nat) (hi : i < n) :
    (rowOfElems out nm i).length = w * nm := by
  unfold rowOfElems
  rw [flatN_length _ nm w, Nat.mul_comm]
  intro j hj
  apply hout
  have := Nat.mul_le_mul_right nm (show i + 1 ≤ n from hi)
  rw [Nat.add_mul] at this
  omega

/-- The converted elements of a legal write have the item size of the block. -/
theorem Spec.XferOk.out_length {env : Env} {bb : Block} {a : Arr} {w sw nm : Nat}
    (h : XferOk env bb a w sw nm) (mem : Mem) (e : Nat) (o : List Byte)
    (hc : convElem env.m env.fo (dtypeNormalize env.m bb.dtype) a.dtype (peek mem (elemAddr a e) sw) =
      some o) : o.length = w :=
  convElem_length env.m env.fo _ a.dtype w (normalize_idem _ _) h.anorm
    (by rw [itemsize_normalize]; exact h.item) _ _ (by rw [peek_length, h.aitem]) hc

end Verif
