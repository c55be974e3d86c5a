import Verif.Spec.Transfer
import Verif.Proof.Rows
import Verif.Proof.Dtype
/-!
# The write loop
-/

set_option autoImplicit false

namespace Verif

open Spec

/-- The buffer array of a transfer. -/
def bufArr (env : Env) (bb : Block) (w nm : Nat) : Arr :=
  { dtype := dtypeNormalize env.m bb.dtype
    dims := [env.chunkBytes / (w * nm), nm]
    strides := defaultStrides w [env.chunkBytes / (w * nm), nm]
    size := env.chunkBytes / (w * nm) * nm
    data := 0 }

section
variable {env : Env} {bb : Block} {a : Arr} {w sw nm : Nat}

theorem Spec.XferOk.rowSize (h : XferOk env bb a w sw nm) : rowSize env.m bb = w * nm := by
  unfold Spec.rowSize
  rw [h.item, h.memb]
  simp

theorem Spec.XferOk.fel0 (h : XferOk env bb a w sw nm) : 0 < w * nm :=
  Nat.mul_pos h.item0 h.memb0

theorem Spec.XferOk.nm_le (h : XferOk env bb a w sw nm) : nm ≤ w * nm :=
  Nat.le_mul_of_pos_left nm h.item0

theorem Spec.XferOk.cs0 (h : XferOk env bb a w sw nm) : 0 < env.chunkBytes / (w * nm) :=
  Nat.div_pos h.buf h.fel0

theorem Spec.XferOk.cs_bytes (h : XferOk env bb a w sw nm) :
    env.chunkBytes / (w * nm) * (w * nm) < 18446744073709551616 :=
  Nat.lt_of_le_of_lt (Nat.div_mul_le_self _ _) h.bufMax

theorem Spec.XferOk.cs_elems (h : XferOk env bb a w sw nm) :
    env.chunkBytes / (w * nm) * nm < 18446744073709551616 :=
  Nat.lt_of_le_of_lt (Nat.mul_le_mul_left _ h.nm_le) h.cs_bytes

theorem Spec.XferOk.elemSizes (h : XferOk env bb a w sw nm) :
    elemSizes env bb = some ((nm : Int), ((w * nm : Nat) : Int), env.chunkBytes / (w * nm)) := by
  have h0 := h.memb0
  have hf0 := h.fel0
  have hfi := h.felInt
  have hne : ¬ bb.nmemb = 0 := by rw [h.memb]; omega
  unfold Verif.elemSizes
  simp only [if_neg hne]
  rw [h.item, h.memb]
  have e : (w : Int) * (nm : Int) = ((w * nm : Nat) : Int) := by simp
  rw [e]
  have h1 : fitsInt ((w * nm : Nat) : Int) = true := by
    unfold fitsInt
    rw [Bool.and_eq_true]
    exact ⟨decide_eq_true (by omega), decide_eq_true (by omega)⟩
  have h2 : (((w * nm : Nat) : Int) == 0) = false := by
    rw [beq_eq_false_iff_ne]
    omega
  rw [h1, h2, u64_of_nat (by omega)]
  simp

theorem Spec.XferOk.bufInit (h : XferOk env bb a w sw nm) :
    arrayInit env.m 0 bb.dtype [env.chunkBytes / (w * nm), u64 bb.nmemb] none =
      some (bufArr env bb w nm) := by
  have h1 := h.cs_elems
  have h2 := h.nm_le
  have h3 := h.felInt
  have h4 := h.bufMax
  have hu : u64 bb.nmemb = nm := by rw [h.memb]; exact u64_of_nat (by omega)
  have hcs : env.chunkBytes / (w * nm) < 18446744073709551616 :=
    Nat.lt_of_le_of_lt (Nat.div_le_self _ _) h4
  rw [hu]
  unfold arrayInit
  rw [if_neg (by simp)]
  simp only [List.isEmpty_cons, Bool.false_eq_true, if_false, h.item]
  unfold bufArr
  congr 2
  unfold dimsProd
  simp only [List.foldl_cons, List.foldl_nil, Nat.one_mul]
  rw [u64_of_nat hcs, u64_of_nat h1]

theorem Spec.XferOk.bufOk (h : XferOk env bb a w sw nm) : ArrOk (bufArr env bb w nm) := by
  refine ⟨by simp [bufArr], by simp [bufArr, defaultStrides_length], by simp [bufArr],
    by simp [bufArr, prodN], ?_⟩
  exact Nat.mul_pos h.cs0 h.memb0

theorem Spec.XferOk.bufAddr (h : XferOk env bb a w sw nm) (k : Nat)
    (hk : k < env.chunkBytes / (w * nm) * nm) : elemAddr (bufArr env bb w nm) k = ((k * w : Nat) : Int) := by
  rw [elemAddr_default _ (w : Int) rfl h.bufOk.size k hk]
  simp [bufArr]

theorem Spec.XferOk.bufDisjoint (h : XferOk env bb a w sw nm) : Disjoint (bufArr env bb w nm) w := by
  intro i j hi hj hij
  rw [h.bufAddr i hi, h.bufAddr j hj]
  rcases Nat.lt_or_gt_of_ne hij with hlt | hgt
  · left
    have := Nat.mul_le_mul_right w (show i + 1 ≤ j from hlt)
    rw [Nat.add_mul] at this
    omega
  · right
    have := Nat.mul_le_mul_right w (show j + 1 ≤ i from hgt)
    rw [Nat.add_mul] at this
    omega

end

/-- The size of the next chunk: at least one row, within the buffer, the file and what is left. -/
theorem chunkSize_spec (bb : Block) (h : Layout bb) (ptr : Ptr) (p n CS : Nat) (hp : PointsTo bb ptr p)
    (hpn : p + n ≤ bb.fsize.sum) (hn : 0 < n) (hcs : 0 < CS) :
    ∃ c, chunkSize bb ptr CS (n : Int) = some c ∧ 0 < c ∧ c ≤ n ∧ c ≤ CS ∧
      p + c ≤ start bb.fsize (ptr.fileid + 1) ∧ ptr.fileid < bb.nfile := by
  have hsm := h.small
  have hholds := hp.holds (by omega)
  have hrow := hp.row
  have hnn := hp.nonneg
  have hf : ptr.fileid < bb.nfile := by
    rcases hp.file with h1 | ⟨h1, h2⟩
    · exact h1
    · exfalso
      have : bb.fsize = [] := List.eq_nil_of_length_eq_zero (by rw [h.nfile, h1])
      rw [this] at hpn
      simp at hpn
      omega
  have hlen : ptr.fileid < bb.fsize.length := by rw [h.nfile]; exact hf
  have hsucc := start_succ bb.fsize ptr.fileid hlen
  have hle := start_le bb.fsize (ptr.fileid + 1)
  unfold chunkSize
  rw [List.getElem?_eq_getElem hlen]
  simp only [Option.pure_def, Option.bind_eq_bind, Option.bind_some]
  have e1 : u64 ((bb.fsize[ptr.fileid] : Int) - ptr.roffset) =
      ((bb.fsize[ptr.fileid] : Int) - ptr.roffset).toNat := u64_nonneg (by omega) (by omega)
  have e2 : u64 (n : Int) = n := u64_of_nat (by omega)
  rw [e1, e2]
  refine ⟨_, rfl, ?_, ?_, ?_, ?_, hf⟩
  · split <;> split <;> omega
  · split <;> split <;> omega
  · split <;> split <;> omega
  · split <;> split <;> omega

/-- A supported conversion. -/
theorem convertible_of_convElem (m : Machine) (fo : FloatOps) (ddt sdt : CStr) (bs out : List Byte)
    (h : convElem m fo ddt sdt bs = some out) : convertible m fo ddt sdt = true := by
  unfold convElem at h
  simp only [Option.map_eq_some_iff] at h
  obtain ⟨r, hr, _⟩ := h
  unfold convertible
  rw [Bool.or_eq_true]
  split at hr
  · rename_i hs; left; simpa using hs
  · right
    simp only [Option.bind_eq_some_iff] at hr
    obtain ⟨c, hc, _⟩ := hr
    rw [hc]; rfl

/-- One file write. -/
theorem writeChunk_spec (bb : Block) (fileid : Nat) (off fel chunk : Nat) (bytes : List Byte)
    (w : World) (hfel : 0 < fel) (hlen : bytes.length = chunk * fel)
    (Q : Bool → World → Prop) (C : World → Prop)
    (hok : ∀ w', w'.fs = w.fs.writeFile (fileKey bb.basename (.data fileid)) off bytes →
      w'.faults = w.faults → IsFile w.fs (fileKey bb.basename (.data fileid)) → Q true w')
    (hfail : ∀ k w', w'.fs = w.fs.writeFile (fileKey bb.basename (.data fileid)) off (bytes.take k) →
      w'.faults = w.faults →
      ¬ (w.faults = noFaults ∧ IsFile w.fs (fileKey bb.basename (.data fileid))) → Q false w')
    (hcr : ∀ k w', w'.fs = w.fs.writeFile (fileKey bb.basename (.data fileid)) off (bytes.take k) →
      w.faults ≠ noFaults → C w') :
    wpc (writeChunk bb fileid (off : Int) (fel : Int) chunk bytes) w Q C := by
  unfold writeChunk
  rw [wpc_bind]
  unfold openAFile
  apply wpc_fopen_rplus
  · intro b w1 hfs1 hfa1 hb1 hb2
    cases b with
    | false =>
      simp only [Bool.false_eq_true, if_false]
      rw [wpc_pure]
      apply hfail 0 w1
      · rw [hfs1, List.take_zero, writeFile_nil]
      · exact hfa1
      · rintro ⟨h1, h2⟩
        exact absurd (hb2 h1 h2) (by simp)
    | true =>
      simp only [if_true]
      rw [if_neg (by omega), wpc_bind]
      have hfile := hb1 rfl
      apply wpc_fwriteAt
      · intro n w2 hfs2 hfa2 hnf
        rw [wpc_pure]
        rw [hfs1] at hfs2
        simp only [Int.toNat_natCast] at hfs2 ⊢
        by_cases hn : bytes.length ≤ n
        · rw [List.take_of_length_le hn] at hfs2
          have e : min n bytes.length = bytes.length := by omega
          have e2 : min n bytes.length / fel = chunk := by
            rw [e, hlen, Nat.mul_div_cancel _ hfel]
          simp only [e2, decide_true]
          exact hok w2 hfs2 (by rw [hfa2, hfa1]) hfile
        · have e : min n bytes.length = n := by omega
          have hne : ¬ n / fel = chunk := by
            intro hc
            have := Nat.div_mul_le_self n fel
            rw [hc] at this
            omega
          have hne' : ¬ min n bytes.length / fel = chunk := by rw [e]; exact hne
          simp only [hne', decide_false]
          apply hfail n w2 hfs2 (by rw [hfa2, hfa1])
          rintro ⟨h1, _⟩
          exact hn (hnf (by rw [hfa1]; exact h1))
      · intro n w2 hfs2 hnf
        apply hcr n w2
        · rw [hfs2, hfs1]
          simp [fileKey]
        · rw [← hfa1]; exact hnf
  · intro w1 hfs1 hnf
    apply hcr 0 w1
    · rw [hfs1, List.take_zero, writeFile_nil]
    · exact hnf

theorem sysvsum_spec (s : Nat) (bs : List Byte) (hs : s < 4294967296) :
    sysvsum s bs = (s + byteSum bs) % 4294967296 := by
  unfold sysvsum byteSum
  induction bs generalizing s with
  | nil => simp; omega
  | cons b bs ih =>
    simp only [List.foldl_cons, List.map_cons, List.sum_cons]
    rw [ih _ (u32_lt _), u32_nat]
    omega

theorem byteSum_append (a b : List Byte) : byteSum (a ++ b) = byteSum a + byteSum b := by
  unfold byteSum
  simp

/-- The byte sums of the rows of a chunk all count for the file of the chunk. -/
theorem rowsSum_chunk (bb : Block) (f i0 c : Nat) (rows : Nat → List Byte)
    (hfit : start bb.fsize f + i0 + c ≤ start bb.fsize (f + 1)) (g : Nat) :
    rowsSum bb (start bb.fsize f + i0) rows g c = if f = g then byteSum (flatN rows c) else 0 := by
  induction c with
  | zero => simp [rowsSum, flatN, byteSum]
  | succ c ih =>
    simp only [rowsSum, flatN]
    rw [ih (by omega)]
    have hloc := locate_unique bb.fsize f (start bb.fsize f + i0 + c) (by omega) (by omega)
    have hrf : rowFile bb (start bb.fsize f + i0 + c) = f := by unfold rowFile; rw [hloc]
    rw [hrf]
    split
    · rw [byteSum_append]
    · rfl

theorem rowsSum_add (bb : Block) (p : Nat) (rows : Nat → List Byte) (g a b : Nat) :
    rowsSum bb p rows g (a + b) =
      rowsSum bb p rows g a + rowsSum bb (p + a) (fun i => rows (a + i)) g b := by
  induction b with
  | zero => simp [rowsSum]
  | succ b ih =>
    rw [← Nat.add_assoc]
    simp only [rowsSum]
    rw [ih, Nat.add_assoc p]
    omega

/-- The rows still to be written when `k` rows are done. -/
def rowsFrom (out : Nat → List Byte) (nm k : Nat) (i : Nat) : List Byte := rowOfElems out nm (k + i)

theorem rowsFrom_shift (out : Nat → List Byte) (nm k c : Nat) :
    (fun i => rowsFrom out nm k (c + i)) = rowsFrom out nm (k + c) := by
  funext i
  unfold rowsFrom
  rw [Nat.add_assoc]

/-- What is known when the write of `n` rows at row `p` returns. -/
structure WritePost (env : Env) (bb : Block) (a : Arr) (sw nm : Nat) (cks : List Nat) (k p n : Nat)
    (rows : Nat → List Byte) (mem : Mem) (w : World) (x : Xfer) (w' : World) : Prop where
  faults : w'.faults = w.faults
  same : x.bb = { bb with fchecksum := x.bb.fchecksum }
  cklen : x.bb.fchecksum.length = bb.nfile
  ck32 : ∀ c ∈ x.bb.fchecksum, c < 4294967296
  cksum : x.rc = 0 → ∀ f, x.bb.fchecksum.getD f 0 = (cks.getD f 0 + rowsSum bb p rows f n) % 4294967296
  native : foreign env.m a.dtype = false → x.mem = mem
  memframe : ∀ y, ¬ InElems a sw (k * nm) (n * nm) y → x.mem y = mem y
  memswap : x.rc = 0 → (foreign env.m a.dtype = true → Disjoint a sw) → ∀ i, i < n * nm →
    peek x.mem (elemAddr a (k * nm + i)) sw =
      toNative env.m a.dtype (peek mem (elemAddr a (k * nm + i)) sw)
  done : x.rc = 0 → w'.fs = putRows env.m bb w.fs p rows n ∧
    (∀ i, i < n → IsFile w.fs (fileKey bb.basename (.data (rowFile bb (p + i))))) ∧
    PointsTo bb x.ptr (p + n)
  failed : x.rc ≠ 0 → x.rc = -1 ∧ Torn env.m bb w.fs w'.fs p rows n ∧
    ∃ j, j ≤ n ∧ PointsTo bb x.ptr (p + j)
  succeeds : w.faults = noFaults → DataFiles w.fs bb → x.rc = 0

theorem getD_set (l : List Nat) (f g v : Nat) (hf : f < l.length) :
    (l.set f v).getD g 0 = if f = g then v else l.getD g 0 := by
  simp only [List.getD_eq_getElem?_getD, List.getElem?_set]
  by_cases h : f = g
  · subst h; simp [hf]
  · simp [h]

theorem mem_set_lt (l : List Nat) (f v B : Nat) (hv : v < B) (h : ∀ c ∈ l, c < B) :
    ∀ c ∈ l.set f v, c < B := by
  intro c hc
  rcases List.mem_or_eq_of_mem_set hc with h1 | h1
  · exact h c h1
  · omega

theorem getD_lt (l : List Nat) (f B : Nat) (h0 : 0 < B) (h : ∀ c ∈ l, c < B) : l.getD f 0 < B := by
  rw [List.getD_eq_getElem?_getD]
  by_cases hf : f < l.length
  · rw [List.getElem?_eq_getElem hf]
    exact h _ (List.getElem_mem hf)
  · rw [List.getElem?_eq_none (by omega)]
    exact h0

theorem inElems_sub (a : Arr) (sw k n k' n' : Nat) (h1 : k ≤ k') (h2 : k' + n' ≤ k + n) (y : Int)
    (h : InElems a sw k' n' y) : InElems a sw k n y := by
  obtain ⟨i, hi, h3, h4⟩ := h
  refine ⟨k' - k + i, by omega, ?_, ?_⟩
  · have : k + (k' - k + i) = k' + i := by omega
    rw [this]; exact h3
  · have : k + (k' - k + i) = k' + i := by omega
    rw [this]; exact h4

theorem writeLoop_spec (env : Env) (bb : Block) (a : Arr) (w sw nm : Nat)
    (h : XferOk env bb a w sw nm)
    (hdis : foreign env.m a.dtype = true → Disjoint a sw) (out : Nat → List Byte) :
    ∀ (fuel n : Nat) (cks : List Nat) (ptr : Ptr) (k p : Nat) (mem : Mem) (wd : World),
    n + 1 ≤ fuel → cks.length = bb.nfile → (∀ c ∈ cks, c < 4294967296) →
    PointsTo bb ptr p → p + n ≤ bb.fsize.sum → (k + n) * nm ≤ a.size →
    (∀ e, k * nm ≤ e → e < (k + n) * nm →
      convElem env.m env.fo (dtypeNormalize env.m bb.dtype) a.dtype (peek mem (elemAddr a e) sw) =
        some (out e)) →
    wpc (writeLoop env ((w * nm : Nat) : Int) (env.chunkBytes / (w * nm)) (bufArr env bb w nm) fuel
        { bb with fchecksum := cks } ptr (iterAt env.m a (k * nm)) (n : Int) mem) wd
      (WritePost env bb a sw nm cks k p n (rowsFrom out nm k) mem wd)
      (fun w' => Torn env.m bb wd.fs w'.fs p (rowsFrom out nm k) n ∧ wd.faults ≠ noFaults) := by
  have hL := h.layout
  have hsm := hL.small
  have hrs := h.rowSize
  intro fuel
  induction fuel with
  | zero => intro n cks ptr k p mem wd hfu; omega
  | succ fuel ih =>
    intro n cks ptr k p mem wd hfu hck hck32 hp hpn hkn hconv
    simp only [writeLoop]
    rw [wpc_bind]
    have heof : eof { bb with fchecksum := cks } ptr = some (decide (p = bb.fsize.sum)) :=
      eof_spec bb hL ptr p hp (by omega)
    rw [heof, wpc_lift_some]
    by_cases hn : n = 0
    · -- nothing left
      subst hn
      have : (!(decide (((0 : Nat) : Int) > 0) && !decide (p = bb.fsize.sum))) = true := by simp
      rw [if_pos this, wpc_pure]
      refine ⟨rfl, rfl, hck, hck32, ?_, fun _ => rfl, fun _ _ => rfl, ?_, ?_, ?_, fun _ _ => rfl⟩
      · intro _ f
        simp only [rowsSum, Nat.add_zero]
        rw [Nat.mod_eq_of_lt (getD_lt cks f _ (by omega) hck32)]
      · intro _ _ i hi; omega
      · intro _
        exact ⟨rfl, fun i hi => absurd hi (by omega), hp⟩
      · intro hc; exact absurd rfl hc
    · have hcond : (!(decide ((n : Int) > 0) && !decide (p = bb.fsize.sum))) = false := by
        have h1 : decide ((n : Int) > 0) = true := decide_eq_true (by omega)
        have h2 : decide (p = bb.fsize.sum) = false := decide_eq_false (by omega)
        rw [h1, h2]; rfl
      rw [hcond]
      simp only [Bool.false_eq_true, if_false]
      obtain ⟨c, hc1, hc0, hcn, hccs, hcfit, hfile⟩ :=
        chunkSize_spec bb hL ptr p n (env.chunkBytes / (w * nm)) hp hpn (by omega) h.cs0
      have hc1' : chunkSize { bb with fchecksum := cks } ptr (env.chunkBytes / (w * nm)) (n : Int) = some c := hc1
      rw [wpc_bind, hc1', wpc_lift_some, wpc_bind]
      -- conversion
      have hcel : c * nm ≤ env.chunkBytes / (w * nm) * nm := Nat.mul_le_mul_right _ hccs
      have hcb : c * nm * w < 18446744073709551616 := by
        have h1 := h.cs_bytes
        have h2 : c * (w * nm) ≤ env.chunkBytes / (w * nm) * (w * nm) := Nat.mul_le_mul_right _ hccs
        have h3 : c * nm * w = c * (w * nm) := by rw [Nat.mul_assoc, Nat.mul_comm nm w]
        omega
      have hcs_el := h.cs_elems
      have hnn : u64 ((c : Int) * ({ bb with fchecksum := cks } : Block).nmemb) = c * nm := by
        show u64 ((c : Int) * bb.nmemb) = c * nm
        rw [h.memb]
        have : (c : Int) * (nm : Int) = ((c * nm : Nat) : Int) := by simp
        rw [this, u64_of_nat (by omega)]
      rw [hnn, iterInit_eq]
      have hck_nm : (k + c) * nm ≤ (k + n) * nm := Nat.mul_le_mul_right _ (by omega)
      have hkn2 : (k + n) * nm = k * nm + n * nm := Nat.add_mul _ _ _
      have hkc : (k + c) * nm = k * nm + c * nm := Nat.add_mul _ _ _
      have hnorm : dtypeNormalize env.m (bufArr env bb w nm).dtype = (bufArr env bb w nm).dtype :=
        normalize_idem _ _
      have hitem : itemsize env.m (bufArr env bb w nm).dtype = w := by
        show itemsize env.m (dtypeNormalize env.m bb.dtype) = w
        rw [itemsize_normalize]; exact h.item
      have hcpos : 0 < c * nm := Nat.mul_pos hc0 h.memb0
      have hsup : convertible env.m env.fo (bufArr env bb w nm).dtype a.dtype = true :=
        convertible_of_convElem _ _ _ _ _ _ (hconv (k * nm) (Nat.le_refl _) (by omega))
      have hok : ConvOk env.m env.fo (bufArr env bb w nm) a w sw 0 (k * nm) (c * nm) :=
        convOk_of env.m env.fo _ _ w sw 0 (k * nm) (c * nm) h.bufOk h.arr hnorm h.anorm hitem h.aitem
          h.item0 (by simpa [bufArr] using hcel) (by omega) hcb hsup
      have houtlen : ∀ e, k * nm ≤ e → e < (k + n) * nm → (out e).length = w := by
        intro e h1 h2
        exact convElem_length env.m env.fo _ a.dtype w (normalize_idem _ _) h.anorm
          (by rw [itemsize_normalize]; exact h.item) _ _ (by rw [peek_length, h.aitem])
          (hconv e h1 h2)
      obtain ⟨dm', sm', hcv, _, hcv2, hcv3, hcv4, hcv5⟩ :=
        dtypeConvert_spec env.m env.fo (bufArr env bb w nm) a env.junk mem sw w (c * nm) 0 (k * nm)
          (fun i => out (k * nm + i)) hok hdis (by
            intro i hi
            exact ⟨houtlen _ (by omega) (by omega), hconv _ (by omega) (by omega)⟩)
      rw [hcv, wpc_lift_some]
      simp only [ne_eq, not_true_eq_false, if_false, Nat.zero_add]
      -- the bytes of the chunk
      have hrl : ∀ i, i < n → (rowsFrom out nm k i).length = rowSize env.m bb := by
        intro i hi
        rw [hrs]
        unfold rowsFrom rowOfElems
        rw [flatN_length _ nm w, Nat.mul_comm]
        intro j hj
        have h1 : (k + i + 1) * nm ≤ (k + n) * nm := Nat.mul_le_mul_right _ (by omega)
        rw [Nat.add_mul, Nat.one_mul] at h1
        have h2 : k * nm ≤ (k + i) * nm := Nat.mul_le_mul_right _ (by omega)
        exact houtlen _ (by omega) (by omega)
      have hbytes : peek dm' 0 (c * ((w * nm : Nat) : Int).toNat) = flatN (rowsFrom out nm k) c := by
        have e1 : c * ((w * nm : Nat) : Int).toNat = c * nm * w := by
          rw [Int.toNat_natCast, Nat.mul_assoc, Nat.mul_comm nm w]
        rw [e1, peek_flatN]
        have e2 : flatN (fun i => peek dm' (0 + ((i * w : Nat) : Int)) w) (c * nm) =
            flatN (fun i => out (k * nm + i)) (c * nm) := by
          apply flatN_congr
          intro i hi
          have := hcv2 h.bufDisjoint i hi
          simp only [Nat.zero_add] at this
          rw [h.bufAddr i (by omega)] at this
          rw [Int.zero_add]
          exact this
        rw [e2, ← flatN_mul]
        apply flatN_congr
        intro i hi
        unfold rowsFrom rowOfElems
        congr 1
        funext j
        rw [Nat.add_mul, Nat.add_assoc]
      rw [hbytes]
      -- the checksum
      have hflen : ptr.fileid < cks.length := by omega
      have hcki : ({ bb with fchecksum := cks } : Block).fchecksum[ptr.fileid]? = some (cks.getD ptr.fileid 0) := by
        show cks[ptr.fileid]? = _
        rw [List.getElem?_eq_getElem hflen, List.getD_eq_getElem?_getD, List.getElem?_eq_getElem hflen]
        rfl
      rw [wpc_bind, hcki, wpc_lift_some, wpc_bind]
      have hroff : ptr.roffset * ((w * nm : Nat) : Int) = ((ptr.roffset.toNat * (w * nm) : Nat) : Int) := by
        have := hp.nonneg
        rw [Int.natCast_mul ptr.roffset.toNat, Int.toNat_of_nonneg this]
      rw [hroff]
      have hrow := hp.row
      have hnn0 := hp.nonneg
      have hpe : p = start bb.fsize ptr.fileid + ptr.roffset.toNat := by omega
      have hfit : start bb.fsize ptr.fileid + ptr.roffset.toNat + c ≤ start bb.fsize (ptr.fileid + 1) := by
        omega
      have hrlc : ∀ i, i < c → (rowsFrom out nm k i).length = rowSize env.m bb :=
        fun i hi => hrl i (by omega)
      have hflat : (flatN (rowsFrom out nm k) c).length = c * (w * nm) := by
        rw [flatN_length _ c (rowSize env.m bb) hrlc, hrs]
      have hckv : sysvsum (cks.getD ptr.fileid 0) (flatN (rowsFrom out nm k) c) < 4294967296 := by
        rw [sysvsum_spec _ _ (getD_lt cks _ _ (by omega) hck32)]
        exact Nat.mod_lt _ (by omega)
      have hsetlen : (cks.set ptr.fileid (sysvsum (cks.getD ptr.fileid 0)
          (flatN (rowsFrom out nm k) c))).length = bb.nfile := by
        rw [List.length_set]; exact hck
      have hsetlt := mem_set_lt cks ptr.fileid _ _ hckv hck32
      have hframe : ∀ y, ¬ InElems a sw (k * nm) (n * nm) y → sm' y = mem y := by
        intro y hy
        apply hcv4
        intro hc
        have h1 : c * nm ≤ n * nm := Nat.mul_le_mul_right _ hcn
        exact hy (inElems_sub a sw (k * nm) (n * nm) (k * nm) (c * nm) (Nat.le_refl _) (by omega) y hc)
      apply writeChunk_spec _ ptr.fileid (ptr.roffset.toNat * (w * nm)) (w * nm) c _ wd h.fel0 hflat
      · -- the chunk was written
        intro w1 hfs1 hfa1 hisf
        simp only [Bool.not_true, Bool.false_eq_true, if_false]
        rw [wpc_bind]
        have hseek : ∃ q, seekRel bb ptr (c : Int) = some (0, q) ∧ PointsTo bb q (p + c) := by
          rw [seekRel_spec bb hL ptr p hp (c : Int) ⟨by omega, by omega⟩]
          have e : (p : Int) + (c : Int) = ((p + c : Nat) : Int) := by omega
          rw [e]
          obtain ⟨q, hq1, hq2, _⟩ := seek_nat bb hL ptr (p + c) (by omega)
          exact ⟨q, hq1, hq2⟩
        obtain ⟨q, hq1, hq2⟩ := hseek
        have hq1' : seekRel { bb with fchecksum := cks.set ptr.fileid (sysvsum (cks.getD ptr.fileid 0)
            (flatN (rowsFrom out nm k) c)) } ptr (c : Int) = some (0, q) := hq1
        rw [hq1', wpc_lift_some]
        simp only [ne_eq, not_true_eq_false, if_false]
        have hnc : (n : Int) - (c : Int) = ((n - c : Nat) : Int) := by omega
        rw [hnc, ← hkc]
        have hfsrows : w1.fs = putRows env.m bb wd.fs p (rowsFrom out nm k) c := by
          rw [hfs1, hpe, ← hrs]
          exact chunk_putRows env.m bb wd.fs ptr.fileid ptr.roffset.toNat c _ hrlc hfit
        have hih := ih (n - c) (cks.set ptr.fileid (sysvsum (cks.getD ptr.fileid 0)
            (flatN (rowsFrom out nm k) c))) q (k + c) (p + c) sm' w1 (by omega) hsetlen hsetlt hq2
            (by omega) (by
              have : k + c + (n - c) = k + n := by omega
              rw [this]; exact hkn) (by
              intro e he1 he2
              have e1 : k + c + (n - c) = k + n := by omega
              rw [e1] at he2
              have hsame : peek sm' (elemAddr a e) sw = peek mem (elemAddr a e) sw := by
                by_cases hfor : foreign env.m a.dtype = true
                · apply peek_ext
                  intro t ht
                  apply hcv4
                  rintro ⟨i, hi, hi1, hi2⟩
                  rcases hdis hfor (k * nm + i) e (by omega) (by omega) (by omega) with h1 | h1 <;> omega
                · rw [hcv3 (by simpa using hfor)]
              rw [hsame]
              exact hconv e (by omega) he2)
        refine wpc_mono hih ?_ ?_
        · -- the loop went on and returned
          intro x w2 hx
          have hsplit : n = c + (n - c) := by omega
          refine ⟨?_, hx.same, hx.cklen, hx.ck32, ?_, ?_, ?_, ?_, ?_, ?_, ?_⟩
          · rw [hx.faults, hfa1]
          · intro hrc f
            rw [hx.cksum hrc f, getD_set _ _ _ _ hflen]
            rw [hsplit, rowsSum_add, rowsFrom_shift]
            have hsum := rowsSum_chunk bb ptr.fileid ptr.roffset.toNat c (rowsFrom out nm k) hfit f
            rw [← hpe] at hsum
            rw [hsum]
            have e1 : c + (n - c) - c = n - c := by omega
            rw [e1]
            split
            · rename_i hff
              subst hff
              rw [sysvsum_spec _ _ (getD_lt cks _ _ (by omega) hck32)]
              omega
            · simp
          · intro hnat
            rw [hx.native hnat, hcv3 hnat]
          · intro y hy
            rw [hx.memframe y, hframe y hy]
            intro hc
            apply hy
            have h1 : (n - c) * nm + c * nm = n * nm := by rw [← Nat.add_mul]; congr 1; omega
            exact inElems_sub a sw (k * nm) (n * nm) ((k + c) * nm) ((n - c) * nm) (by omega)
              (by omega) y hc
          · intro hrc hd i hi
            have h1 : (n - c) * nm + c * nm = n * nm := by rw [← Nat.add_mul]; congr 1; omega
            by_cases hic : i < c * nm
            · rw [← hcv5 i hic]
              by_cases hfor : foreign env.m a.dtype = true
              · apply peek_ext
                intro t ht
                apply hx.memframe
                rintro ⟨i', hi', hi1, hi2⟩
                rcases hd hfor (k * nm + i) ((k + c) * nm + i') (by omega) (by omega) (by omega)
                  with h2 | h2 <;> omega
              · rw [hx.native (by simpa using hfor)]
            · have e1 : k * nm + i = (k + c) * nm + (i - c * nm) := by omega
              rw [e1, hx.memswap hrc hd (i - c * nm) (by omega), ← e1]
              congr 1
              by_cases hfor : foreign env.m a.dtype = true
              · apply peek_ext
                intro t ht
                apply hcv4
                rintro ⟨i', hi', hi1, hi2⟩
                rcases hd hfor (k * nm + i) (k * nm + i') (by omega) (by omega) (by omega)
                  with h2 | h2 <;> omega
              · rw [hcv3 (by simpa using hfor)]
          · intro hrc
            obtain ⟨h1, h2, h3⟩ := hx.done hrc
            refine ⟨?_, ?_, ?_⟩
            · rw [h1, hfsrows]
              conv => rhs; rw [hsplit]
              rw [putRows_add, rowsFrom_shift]
            · intro i hi
              by_cases hic : i < c
              · have hloc := locate_unique bb.fsize ptr.fileid (p + i) (by omega) (by omega)
                have hrf : rowFile bb (p + i) = ptr.fileid := by unfold rowFile; rw [hloc]
                rw [hrf]; exact hisf
              · have := h2 (i - c) (by omega)
                rw [hfsrows, isFile_putRows] at this
                have e : p + c + (i - c) = p + i := by omega
                rw [e] at this
                exact this
            · have e : p + c + (n - c) = p + n := by omega
              rw [e] at h3
              exact h3
          · intro hrc
            obtain ⟨h1, h2, j, hj, h3⟩ := hx.failed hrc
            refine ⟨h1, ?_, c + j, by omega, ?_⟩
            · rw [hfsrows, ← rowsFrom_shift] at h2
              have := torn_after env.m bb wd.fs w2.fs p (rowsFrom out nm k) c (n - c) h2
              rw [← hsplit] at this
              exact this
            · have e : p + (c + j) = p + c + j := by omega
              rw [e]; exact h3
          · intro hnf hdf
            apply hx.succeeds
            · rw [hfa1]; exact hnf
            · intro f hf
              rw [hfsrows, isFile_putRows]
              exact hdf f hf
        · -- killed later
          rintro w2 ⟨h1, h2⟩
          refine ⟨?_, by rw [← hfa1]; exact h2⟩
          rw [hfsrows, ← rowsFrom_shift] at h1
          have := torn_after env.m bb wd.fs w2.fs p (rowsFrom out nm k) c (n - c) h1
          have hsplit : c + (n - c) = n := by omega
          rw [hsplit] at this
          exact this
      · -- the file operation failed
        intro kk w1 hfs1 hfa1 hnot
        simp only [Bool.not_false, if_true]
        rw [wpc_pure]
        have htorn := chunk_torn env.m bb wd.fs ptr.fileid ptr.roffset.toNat c kk _ hrlc hfit
        rw [← hpe, hrs] at htorn
        refine ⟨hfa1, rfl, hsetlen, hsetlt, ?_, hcv3, hframe, ?_, ?_, ?_, ?_⟩
        · intro hc; simp at hc
        · intro hc; simp at hc
        · intro hc; simp at hc
        · intro _
          refine ⟨rfl, ?_, 0, by omega, hp⟩
          rw [hfs1]
          exact torn_mono _ _ _ _ _ _ _ _ hcn htorn
        · intro hnf hdf
          exact absurd ⟨hnf, hdf ptr.fileid hfile⟩ hnot
      · -- killed inside the write
        intro kk w1 hfs1 hnf
        have htorn := chunk_torn env.m bb wd.fs ptr.fileid ptr.roffset.toNat c kk _ hrlc hfit
        rw [← hpe, hrs] at htorn
        refine ⟨?_, hnf⟩
        rw [hfs1]
        exact torn_mono _ _ _ _ _ _ _ _ hcn htorn

end Verif
