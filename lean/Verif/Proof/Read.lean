import Verif.Proof.Write
/-!
# The read loop
-/

set_option autoImplicit false

namespace Verif

open Spec

theorem peek_poke_sub (mem : Mem) (a : Int) (bs : List Byte) (o n : Nat) (h : o + n ≤ bs.length) :
    peek (poke mem a bs) (a + o) n = (bs.drop o).take n := by
  apply List.ext_getElem
  · rw [peek_length, List.length_take, List.length_drop]; omega
  · intro i h1 h2
    rw [peek_length] at h1
    rw [peek_getElem, List.getElem_take, List.getElem_drop]
    have e : a + (o : Int) + (i : Int) = a + ((o + i : Nat) : Int) := by omega
    rw [e, poke_inside _ _ _ _ (by omega)]

theorem slice_slice (l : List Byte) (a n b m : Nat) (h : b + m ≤ n) :
    ((((l.drop a).take n).drop b).take m) = (l.drop (a + b)).take m := by
  rw [List.drop_take, List.take_take, List.drop_drop]
  congr 1
  omega

/-- One file read: only complete chunks are accepted. -/
theorem readChunk_spec (bb : Block) (fileid : Nat) (off fel chunk : Nat) (w : World)
    (hfel : 0 < fel) (hch : 0 < chunk) (Q : Option (List Byte) → World → Prop) (C : World → Prop)
    (hok : ∀ w', w'.fs = w.fs → w'.faults = w.faults →
      off + chunk * fel ≤ (w.fs.bytes (fileKey bb.basename (.data fileid))).length →
      Q (some (((w.fs.bytes (fileKey bb.basename (.data fileid))).drop off).take (chunk * fel))) w')
    (hfail : ∀ w', w'.fs = w.fs → w'.faults = w.faults →
      ¬ (w.faults = noFaults ∧
        off + chunk * fel ≤ (w.fs.bytes (fileKey bb.basename (.data fileid))).length) → Q none w')
    (hcr : ∀ w', w'.fs = w.fs → w.faults ≠ noFaults → C w') :
    wpc (readChunk bb fileid (off : Int) (fel : Int) chunk) w Q C := by
  unfold readChunk
  rw [wpc_bind]
  unfold openAFile
  have hpos : 0 < chunk * fel := Nat.mul_pos hch hfel
  apply wpc_fopen_r
  · intro b w1 hfs1 hfa1 hb1 hb2
    cases b with
    | false =>
      simp only [Bool.false_eq_true, if_false]
      rw [wpc_pure]
      apply hfail w1 hfs1 hfa1
      rintro ⟨h1, h2⟩
      have h3 := hb2 h1
      unfold FS.bytes at h2
      unfold fileKey at h2
      cases hn : w.fs.node (resolve (filePath bb.basename (.data fileid))) with
      | none => rw [hn] at h2; simp at h2; omega
      | some x => rw [hn] at h3; simp at h3
    | true =>
      simp only [if_true]
      rw [if_neg (by omega), wpc_bind]
      apply wpc_freadAt
      · intro n w2 hfs2 hfa2 hnf
        rw [wpc_pure, hfs1]
        simp only [Int.toNat_natCast]
        show Q (if (List.take n (List.take (chunk * fel)
          (List.drop off (w.fs.bytes (fileKey bb.basename (.data fileid)))))).length / fel = chunk
          then some _ else none) w2
        by_cases hl : (List.take n (List.take (chunk * fel)
          (List.drop off (w.fs.bytes (fileKey bb.basename (.data fileid)))))).length / fel = chunk
        · rw [if_pos hl]
          have h1 := Nat.div_mul_le_self (List.take n (List.take (chunk * fel)
            (List.drop off (w.fs.bytes (fileKey bb.basename (.data fileid)))))).length fel
          rw [hl] at h1
          simp only [List.length_take, List.length_drop] at h1
          have e : List.take n (List.take (chunk * fel)
            (List.drop off (w.fs.bytes (fileKey bb.basename (.data fileid))))) =
              List.take (chunk * fel)
            (List.drop off (w.fs.bytes (fileKey bb.basename (.data fileid)))) := by
            apply List.take_of_length_le
            simp only [List.length_take, List.length_drop]
            omega
          rw [show (resolve (filePath bb.basename (FileId.data fileid))) =
            fileKey bb.basename (.data fileid) from rfl, e]
          exact hok w2 (by rw [hfs2, hfs1]) (by rw [hfa2, hfa1]) (by omega)
        · rw [if_neg hl]
          apply hfail w2 (by rw [hfs2, hfs1]) (by rw [hfa2, hfa1])
          rintro ⟨h1, h2⟩
          apply hl
          have hn := hnf (by rw [hfa1]; exact h1)
          simp only [Int.toNat_natCast] at hn
          have e : (List.take n (List.take (chunk * fel)
            (List.drop off (w.fs.bytes (fileKey bb.basename (.data fileid)))))).length = chunk * fel := by
            simp only [List.length_take, List.length_drop]
            omega
          rw [e, Nat.mul_div_cancel _ hfel]
      · intro w2 hfs2 hnf
        exact hcr w2 (by rw [hfs2, hfs1]) (by rw [← hfa1]; exact hnf)
  · intro w1 hfs1 hnf
    exact hcr w1 hfs1 hnf

/-- What is known when a read of `n` rows at row `p` into elements from row `k` of the array on
returns. -/
structure ReadPost (env : Env) (bb : Block) (a : Arr) (sw nm k p n : Nat)
    (out : Nat → List Byte) (mem : Mem) (w : World) (x : Xfer) (w' : World) : Prop where
  faults : w'.faults = w.faults
  fs : w'.fs = w.fs
  same : x.bb = bb
  memframe : ∀ y, ¬ InElems a sw (k * nm) (n * nm) y → x.mem y = mem y
  done : x.rc = 0 → (∀ i, i < n → Stored env.m w.fs bb (p + i)) ∧ PointsTo bb x.ptr (p + n) ∧
    (Disjoint a sw → ∀ i, i < n * nm → peek x.mem (elemAddr a (k * nm + i)) sw = out (k * nm + i))
  failed : x.rc ≠ 0 → x.rc = -1 ∧ ∃ j, j ≤ n ∧ PointsTo bb x.ptr (p + j)
  succeeds : w.faults = noFaults → (∀ i, i < n → Stored env.m w.fs bb (p + i)) → x.rc = 0

theorem readLoop_spec (env : Env) (bb : Block) (a : Arr) (w sw nm : Nat)
    (h : XferOk env bb a w sw nm) (out : Nat → List Byte) (p0 N : Nat) (fs : FS)
    (hN : N * nm ≤ a.size)
    (hsup : 0 < N → convertible env.m env.fo a.dtype (dtypeNormalize env.m bb.dtype) = true)
    (hconv : ∀ e, e < N * nm → Stored env.m fs bb (p0 + e / nm) →
      convElem env.m env.fo a.dtype (dtypeNormalize env.m bb.dtype)
        (elemOfRows env.m fs bb p0 w nm e) = some (out e)) :
    ∀ (fuel n : Nat) (ptr : Ptr) (k : Nat) (mem : Mem) (wd : World),
    n + 1 ≤ fuel → wd.fs = fs → k + n = N →
    PointsTo bb ptr (p0 + k) → p0 + N ≤ bb.fsize.sum →
    wpc (readLoop env ((w * nm : Nat) : Int) (env.chunkBytes / (w * nm)) (bufArr env bb w nm) fuel
        bb ptr (iterAt env.m a (k * nm)) (n : Int) mem) wd
      (ReadPost env bb a sw nm k (p0 + k) n out mem wd)
      (fun w' => w'.fs = wd.fs ∧ wd.faults ≠ noFaults) := by
  have hL := h.layout
  have hsm := hL.small
  have hrs := h.rowSize
  have hfel := h.fel0
  intro fuel
  induction fuel with
  | zero => intro n ptr k mem wd hfu; omega
  | succ fuel ih =>
    intro n ptr k mem wd hfu hfs hkN hp hpn
    simp only [readLoop]
    rw [wpc_bind]
    rw [eof_spec bb hL ptr (p0 + k) hp (by omega), wpc_lift_some]
    by_cases hn : n = 0
    · subst hn
      have : (!(decide (((0 : Nat) : Int) > 0) && !decide (p0 + k = bb.fsize.sum))) = true := by simp
      rw [if_pos this, wpc_pure]
      refine ⟨rfl, rfl, rfl, fun _ _ => rfl, ?_, fun hc => absurd rfl hc, fun _ _ => rfl⟩
      intro _
      exact ⟨fun i hi => absurd hi (by omega), hp, fun _ i hi => by omega⟩
    · have hcond : (!(decide ((n : Int) > 0) && !decide (p0 + k = bb.fsize.sum))) = false := by
        have h1 : decide ((n : Int) > 0) = true := decide_eq_true (by omega)
        have h2 : decide (p0 + k = bb.fsize.sum) = false := decide_eq_false (by omega)
        rw [h1, h2]; rfl
      rw [hcond]
      simp only [Bool.false_eq_true, if_false]
      obtain ⟨c, hc1, hc0, hcn, hccs, hcfit, hfile⟩ :=
        chunkSize_spec bb hL ptr (p0 + k) n (env.chunkBytes / (w * nm)) hp (by omega) (by omega) h.cs0
      rw [wpc_bind, hc1, wpc_lift_some, if_neg (by omega), wpc_bind]
      have hrow := hp.row
      have hnn0 := hp.nonneg
      have hpe : p0 + k = start bb.fsize ptr.fileid + ptr.roffset.toNat := by omega
      have hroff : ptr.roffset * ((w * nm : Nat) : Int) = ((ptr.roffset.toNat * (w * nm) : Nat) : Int) := by
        rw [Int.natCast_mul ptr.roffset.toNat, Int.toNat_of_nonneg hnn0]
      rw [hroff]
      have hloc : ∀ i, i < c → locate bb.fsize (p0 + k + i) = (ptr.fileid, ptr.roffset.toNat + i) := by
        intro i hi
        rw [locate_unique bb.fsize ptr.fileid (p0 + k + i) (by omega) (by omega)]
        congr 1
        omega
      have hoff : ∀ i, i < c → rowOff env.m bb (p0 + k + i) = (ptr.roffset.toNat + i) * (w * nm) := by
        intro i hi; unfold rowOff; rw [hloc i hi, hrs]
      have hrf : ∀ i, i < c → rowFile bb (p0 + k + i) = ptr.fileid := by
        intro i hi; unfold rowFile; rw [hloc i hi]
      have hstored : ∀ i, i < c → (Stored env.m wd.fs bb (p0 + k + i) ↔
          (ptr.roffset.toNat + i) * (w * nm) + w * nm ≤
            (wd.fs.bytes (fileKey bb.basename (.data ptr.fileid))).length) := by
        intro i hi
        rw [stored_len _ _ _ _ (by omega), hoff i hi, hrf i hi, hrs]
      apply readChunk_spec bb ptr.fileid (ptr.roffset.toNat * (w * nm)) (w * nm) c wd hfel hc0
      · intro w1 hfs1 hfa1 hlen
        simp only
        have hst : ∀ i, i < c → Stored env.m wd.fs bb (p0 + k + i) := by
          intro i hi
          rw [hstored i hi]
          have h1 := Nat.mul_le_mul_right (w * nm) (show ptr.roffset.toNat + i + 1 ≤ ptr.roffset.toNat + c by omega)
          rw [Nat.add_mul _ 1, Nat.one_mul, Nat.add_mul _ c] at h1
          omega
        have hcel : c * nm ≤ env.chunkBytes / (w * nm) * nm := Nat.mul_le_mul_right _ hccs
        have hcs_el := h.cs_elems
        have hnn : u64 ((c : Int) * bb.nmemb) = c * nm := by
          rw [h.memb]
          have : (c : Int) * (nm : Int) = ((c * nm : Nat) : Int) := by simp
          rw [this, u64_of_nat (by omega)]
        rw [hnn, iterInit_eq, wpc_bind]
        have hkc : (k + c) * nm = k * nm + c * nm := Nat.add_mul _ _ _
        have hkn2 : (k + n) * nm = k * nm + n * nm := Nat.add_mul _ _ _
        have hck_nm : (k + c) * nm ≤ (k + n) * nm := Nat.mul_le_mul_right _ (by omega)
        rw [hkN] at hck_nm hkn2
        have hnorm : dtypeNormalize env.m (bufArr env bb w nm).dtype = (bufArr env bb w nm).dtype :=
          normalize_idem _ _
        have hitem : itemsize env.m (bufArr env bb w nm).dtype = w := by
          show itemsize env.m (dtypeNormalize env.m bb.dtype) = w
          rw [itemsize_normalize]; exact h.item
        have hab := h.abytes
        have hok : ConvOk env.m env.fo a (bufArr env bb w nm) sw w (k * nm) 0 (c * nm) :=
          convOk_of env.m env.fo _ _ sw w (k * nm) 0 (c * nm) h.arr h.bufOk h.anorm hnorm h.aitem hitem
            h.aitem0 (by omega) (by simpa [bufArr] using hcel) (by
              have := Nat.mul_le_mul_right sw (show c * nm ≤ a.size by omega)
              omega) (hsup (by omega))
        -- the bytes of the chunk
        have hel : ∀ i, i < c * nm →
            peek (poke env.junk 0 (((wd.fs.bytes (fileKey bb.basename (.data ptr.fileid))).drop
              (ptr.roffset.toNat * (w * nm))).take (c * (w * nm)))) (elemAddr (bufArr env bb w nm) (0 + i)) w =
            elemOfRows env.m fs bb p0 w nm (k * nm + i) := by
          intro i hi
          have hnm := h.memb0
          have hdm := Nat.div_add_mod i nm
          have hml := Nat.mod_lt i hnm
          have hic : i / nm < c := (Nat.div_lt_iff_lt_mul hnm).mpr hi
          have hcw : c * (w * nm) = c * nm * w := by rw [Nat.mul_assoc, Nat.mul_comm nm w]
          have hiw : i * w + w ≤ c * nm * w := by
            have := Nat.mul_le_mul_right w (show i + 1 ≤ c * nm from hi)
            rw [Nat.add_mul, Nat.one_mul] at this
            exact this
          have hcwl : c * (w * nm) ≤ (wd.fs.bytes (fileKey bb.basename (.data ptr.fileid))).length -
              ptr.roffset.toNat * (w * nm) := by omega
          rw [Nat.zero_add, h.bufAddr i (by omega)]
          have e0 := peek_poke_sub env.junk 0 (((wd.fs.bytes (fileKey bb.basename (.data ptr.fileid))).drop
              (ptr.roffset.toNat * (w * nm))).take (c * (w * nm))) (i * w) w (by
                simp only [List.length_take, List.length_drop]; omega)
          rw [Int.zero_add] at e0
          rw [e0, slice_slice _ _ _ _ _ (by omega)]
          unfold elemOfRows
          have e1 : (k * nm + i) / nm = k + i / nm := by
            rw [Nat.add_comm, Nat.add_mul_div_right _ _ hnm, Nat.add_comm]
          have e2 : (k * nm + i) % nm = i % nm := by
            rw [Nat.add_comm, Nat.add_mul_mod_self_right]
          rw [e1, e2, ← Nat.add_assoc]
          unfold row
          have hjw : i % nm * w + w ≤ w * nm := by
            have := Nat.mul_le_mul_right w (show i % nm + 1 ≤ nm from hml)
            rw [Nat.add_mul, Nat.one_mul, Nat.mul_comm nm w] at this
            exact this
          rw [hrf _ hic, hoff _ hic, hrs, slice_slice _ _ _ _ _ hjw, ← hfs]
          congr 2
          rw [Nat.add_mul, Nat.add_assoc]
          congr 1
          have : i * w = (i / nm * nm + i % nm) * w := by rw [Nat.mul_comm (i / nm), hdm]
          rw [this, Nat.add_mul]
          congr 1
          rw [Nat.mul_assoc, Nat.mul_comm nm w]
        have hinE : ∀ i, i < c * nm → k * nm + i < N * nm ∧
            Stored env.m fs bb (p0 + (k * nm + i) / nm) := by
          intro i hi
          have hnm := h.memb0
          have hic : i / nm < c := (Nat.div_lt_iff_lt_mul hnm).mpr hi
          have e1 : (k * nm + i) / nm = k + i / nm := by
            rw [Nat.add_comm, Nat.add_mul_div_right _ _ hnm, Nat.add_comm]
          refine ⟨by omega, ?_⟩
          rw [e1, ← Nat.add_assoc, ← hfs]
          exact hst _ hic
        obtain ⟨dm', sm', hcv, hcv1, hcv2, _, _, _⟩ :=
          dtypeConvert_spec env.m env.fo a (bufArr env bb w nm) mem
            (poke env.junk 0 (((wd.fs.bytes (fileKey bb.basename (.data ptr.fileid))).drop
              (ptr.roffset.toNat * (w * nm))).take (c * (w * nm)))) w sw (c * nm) (k * nm) 0
            (fun i => out (k * nm + i)) hok (fun _ => h.bufDisjoint) (by
              intro i hi
              obtain ⟨h1, h2⟩ := hinE i hi
              have hcv := hconv _ h1 h2
              refine ⟨?_, by rw [hel i hi]; exact hcv⟩
              apply convElem_length env.m env.fo a.dtype _ sw h.anorm (normalize_idem _ _) h.aitem _ _ ?_ hcv
              rw [← hel i hi, peek_length, itemsize_normalize, h.item])
        rw [hcv, wpc_lift_some]
        simp only [ne_eq, not_true_eq_false, if_false, Nat.zero_add]
        rw [wpc_bind]
        have hseek : ∃ q, seekRel bb ptr (c : Int) = some (0, q) ∧ PointsTo bb q (p0 + (k + c)) := by
          rw [seekRel_spec bb hL ptr (p0 + k) hp (c : Int) ⟨by omega, by omega⟩]
          have e : ((p0 + k : Nat) : Int) + (c : Int) = ((p0 + (k + c) : Nat) : Int) := by omega
          rw [e]
          obtain ⟨q, hq1, hq2, _⟩ := seek_nat bb hL ptr (p0 + (k + c)) (by omega)
          exact ⟨q, hq1, hq2⟩
        obtain ⟨q, hq1, hq2⟩ := hseek
        rw [hq1, wpc_lift_some]
        simp only [ne_eq, not_true_eq_false, if_false]
        have hnc : (n : Int) - (c : Int) = ((n - c : Nat) : Int) := by omega
        rw [hnc, ← hkc]
        have h1 : (n - c) * nm + c * nm = n * nm := by rw [← Nat.add_mul]; congr 1; omega
        refine wpc_mono (ih (n - c) q (k + c) dm' w1 (by omega) (by rw [hfs1, hfs]) (by omega) hq2 hpn) ?_ ?_
        · intro x w2 hx
          refine ⟨by rw [hx.faults, hfa1], by rw [hx.fs, hfs1], hx.same, ?_, ?_, ?_, ?_⟩
          · intro y hy
            rw [hx.memframe y, hcv1 y]
            · intro hc
              exact hy (inElems_sub a sw (k * nm) (n * nm) (k * nm) (c * nm) (by omega) (by omega) y hc)
            · intro hc
              exact hy (inElems_sub a sw (k * nm) (n * nm) ((k + c) * nm) ((n - c) * nm) (by omega) (by omega) y hc)
          · intro hrc
            obtain ⟨g1, g2, g3⟩ := hx.done hrc
            refine ⟨?_, ?_, ?_⟩
            · intro i hi
              by_cases hic : i < c
              · exact hst i hic
              · have := g1 (i - c) (by omega)
                rw [hfs1] at this
                have e : p0 + (k + c) + (i - c) = p0 + k + i := by omega
                rw [e] at this
                exact this
            · have e : p0 + (k + c) + (n - c) = p0 + k + n := by omega
              rw [e] at g2; exact g2
            · intro hd i hi
              by_cases hic : i < c * nm
              · rw [← hcv2 hd i hic]
                apply peek_ext
                intro t ht
                apply hx.memframe
                rintro ⟨i', hi', hi1, hi2⟩
                rcases hd (k * nm + i) ((k + c) * nm + i') (by omega) (by omega) (by omega)
                  with h2 | h2 <;> omega
              · have e1 : k * nm + i = (k + c) * nm + (i - c * nm) := by omega
                rw [e1]
                exact g3 hd (i - c * nm) (by omega)
          · intro hrc
            obtain ⟨g1, j, hj, g2⟩ := hx.failed hrc
            refine ⟨g1, c + j, by omega, ?_⟩
            have e : p0 + k + (c + j) = p0 + (k + c) + j := by omega
            rw [e]; exact g2
          · intro hnf hst'
            apply hx.succeeds
            · rw [hfa1]; exact hnf
            · intro i hi
              have e : p0 + (k + c) + i = p0 + k + (c + i) := by omega
              rw [e, hfs1]
              exact hst' (c + i) (by omega)
        · rintro w2 ⟨g1, g2⟩
          exact ⟨by rw [g1, hfs1], by rw [← hfa1]; exact g2⟩
      · intro w1 hfs1 hfa1 hnot
        simp only
        rw [wpc_pure]
        refine ⟨hfa1, hfs1, rfl, fun _ _ => rfl, ?_, ?_, ?_⟩
        · intro hc; simp at hc
        · intro _; exact ⟨rfl, 0, by omega, hp⟩
        · intro hnf hst'
          exfalso
          apply hnot
          refine ⟨hnf, ?_⟩
          have h2 := (hstored (c - 1) (by omega)).mp (hst' (c - 1) (by omega))
          have e : ptr.roffset.toNat * (w * nm) + c * (w * nm) = (ptr.roffset.toNat + (c - 1)) * (w * nm) + w * nm := by
            rw [← Nat.add_mul, ← Nat.succ_mul]
            congr 1
            omega
          omega
      · intro w1 hfs1 hnf
        exact ⟨hfs1, hnf⟩

end Verif
