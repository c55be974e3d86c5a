import Verif.Spec.Holes
import Verif.Props.Object
/-!
# Rows that were never written
-/

set_option autoImplicit false

namespace Verif

open Spec

variable {env : Env} {K : Kind} {bb : Block} {w : World} {H : Holey}

theorem rowOff_le (m : Machine) {r r' : Nat} (hpos : 0 < rowSize m bb) (h : rowFile bb r = rowFile bb r') :
    rowOff m bb r ≤ rowOff m bb r' ↔ r ≤ r' := by
  unfold rowFile at h
  have h1 := locate_start bb.fsize r
  have h2 := locate_start bb.fsize r'
  rw [h] at h1
  unfold rowOff
  rw [Nat.mul_le_mul_right_iff hpos]
  omega

theorem stored_putRow (m : Machine) (fs : FS) (p r : Nat) (bs : List Byte) (hpos : 0 < rowSize m bb)
    (hf : IsFile fs (fileKey bb.basename (.data (rowFile bb p)))) (hl : bs.length = rowSize m bb) :
    Stored m (putRow m bb fs p bs) bb r ↔ Stored m fs bb r ∨ (rowFile bb p = rowFile bb r ∧ r ≤ p) := by
  have hne : bs ≠ [] := by intro h; rw [h] at hl; simp at hl; omega
  rw [stored_len _ _ _ _ hpos, stored_len _ _ _ _ hpos]
  unfold putRow
  by_cases h : rowFile bb p = rowFile bb r
  · rw [← h, bytes_writeFile_same _ _ _ _ hf, writeAt_length _ _ _ hne, hl, ← rowOff_le m hpos h.symm]
    constructor
    · intro h1
      by_cases h2 : rowOff m bb r + rowSize m bb ≤ (fs.bytes (fileKey bb.basename (.data (rowFile bb p)))).length
      · exact Or.inl h2
      · exact Or.inr ⟨rfl, by omega⟩
    · rintro (h1 | ⟨_, h1⟩) <;> omega
  · rw [bytes_writeFile_other _ _ _ _ _ (dataKey_ne bb _ _ (Ne.symm h))]
    exact ⟨Or.inl, fun h1 => h1.elim id (fun h2 => absurd h2.1 h)⟩

theorem stored_putRows (m : Machine) (fs : FS) (p r : Nat) (rows : Nat → List Byte) (n : Nat) (hpos : 0 < rowSize m bb)
    (hf : ∀ i, i < n → IsFile fs (fileKey bb.basename (.data (rowFile bb (p + i)))))
    (hl : ∀ i, i < n → (rows i).length = rowSize m bb) :
    Stored m (putRows m bb fs p rows n) bb r ↔
      Stored m fs bb r ∨ ∃ i, i < n ∧ rowFile bb (p + i) = rowFile bb r ∧ r ≤ p + i := by
  induction n with
  | zero => simp [putRows]
  | succ n ih =>
    simp only [putRows]
    rw [stored_putRow m _ _ _ _ hpos ((isFile_putRows _ _ _ _ _ _ _).mpr (hf n (by omega))) (hl n (by omega)),
      ih (fun i hi => hf i (by omega)) (fun i hi => hl i (by omega))]
    constructor
    · rintro ((h | ⟨i, h1, h2⟩) | h)
      · exact Or.inl h
      · exact Or.inr ⟨i, by omega, h2⟩
      · exact Or.inr ⟨n, by omega, h⟩
    · rintro (h | ⟨i, h1, h2⟩)
      · exact Or.inl (Or.inl h)
      · by_cases hi : i < n
        · exact Or.inl (Or.inr ⟨i, hi, h2⟩)
        · have : i = n := by omega
          subst this
          exact Or.inr h2

/-- All bytes are zero. -/
def Zeros (bs : List Byte) : Prop := ∀ b ∈ bs, b = 0

theorem zeros_get {bs : List Byte} : Zeros bs ↔ ∀ x : Nat, bs[x]? = none ∨ bs[x]? = some 0 := by
  constructor
  · intro h x
    cases hx : bs[x]? with
    | none => exact Or.inl rfl
    | some b => right; rw [h b (List.mem_of_getElem? hx)]
  · intro h b hb
    obtain ⟨x, hx⟩ := List.getElem?_of_mem hb
    rcases h x with h1 | h1
    · rw [h1] at hx; cases hx
    · rw [h1] at hx; exact (Option.some.inj hx).symm

theorem zeros_putRow (m : Machine) (fs : FS) (p r : Nat) (bs : List Byte) (hne : p ≠ r)
    (hl : bs.length ≤ rowSize m bb) (hz : Zeros (row m fs bb r)) :
    Zeros (row m (putRow m bb fs p bs) bb r) := by
  by_cases hf : IsFile fs (fileKey bb.basename (.data (rowFile bb p)))
  · by_cases h : rowFile bb p = rowFile bb r
    · rw [zeros_get] at hz ⊢
      intro x
      have hz := hz x
      have hoff := (rowFile_eq_or_off m bb p r hne).resolve_left (fun h1 => h1 h)
      unfold row putRow at *
      rw [← h] at hz ⊢
      rw [bytes_writeFile_same _ _ _ _ hf]
      simp only [List.getElem?_take, List.getElem?_drop] at hz ⊢
      by_cases hx : x < rowSize m bb
      · rw [if_pos hx] at hz ⊢
        by_cases hlen : rowOff m bb r + x < (fs.bytes (fileKey bb.basename (.data (rowFile bb p)))).length
        · rw [writeAt_get_out _ _ _ _ (by omega) hlen]
          exact hz
        · by_cases hb : bs = []
          · subst hb
            rw [writeAt_nil]
            exact hz
          · by_cases hlt : rowOff m bb r + x < rowOff m bb p
            · exact Or.inr (writeAt_get_gap _ _ _ _ hb hlt (by omega))
            · exact Or.inl (writeAt_get_none _ _ _ _ (by omega) (by omega))
      · rw [if_neg hx]
        exact Or.inl rfl
    · unfold row putRow at *
      rw [bytes_writeFile_other _ _ _ _ _ (dataKey_ne bb _ _ (Ne.symm h))]
      exact hz
  · unfold putRow
    rw [writeFile_nofile _ _ _ _ hf]
    exact hz

theorem zeros_putRows (m : Machine) (fs : FS) (p r : Nat) (rows : Nat → List Byte) (n : Nat)
    (hne : r < p ∨ p + n ≤ r) (hl : ∀ i, i < n → (rows i).length = rowSize m bb) (hz : Zeros (row m fs bb r)) :
    Zeros (row m (putRows m bb fs p rows n) bb r) := by
  induction n with
  | zero => exact hz
  | succ n ih =>
    simp only [putRows]
    exact zeros_putRow m _ _ _ _ (by omega) (by rw [hl n (by omega)]; exact Nat.le_refl _)
      (ih (by omega) (fun i hi => hl i (by omega)))

/-- The handle and its directory hold this, and every data file ends after its last written row, with zeros where nothing
was written. -/
structure HoldsH (env : Env) (K : Kind) (bb : Block) (fs : FS) (H : Holey) : Prop where
  holds : Holds env K bb fs H.content
  sizes : bb.fsize = H.sizes
  reach : ∀ r, r < H.content.size → (Stored env.m fs bb r ↔ H.reached r)
  zeros : ∀ r, r < H.content.size → H.content.rows r = none → Zeros (row env.m fs bb r)

theorem HoldsH.pos {fs : FS} (h : HoldsH env K bb fs H) : rowSize env.m bb = K.w * K.nm ∧ 0 < rowSize env.m bb := by
  have h1 : rowSize env.m bb = K.w * K.nm := by
    unfold rowSize
    rw [h.holds.ok.item, h.holds.ok.memb]
    rfl
  exact ⟨h1, by rw [h1]; exact Nat.mul_pos h.holds.ok.item0 h.holds.ok.memb0⟩

/-- What a row that can be read holds. -/
theorem HoldsH.row_eq {fs : FS} (h : HoldsH env K bb fs H) {r : Nat} (hr : r < H.content.size) (hs : H.reached r) :
    row env.m fs bb r = H.shown K r := by
  unfold Holey.shown
  cases hc : H.content.rows r with
  | some bytes => exact (h.holds.rows r bytes hc).2.1
  | none =>
    have hst := (h.reach r hr).mpr hs
    unfold Stored at hst
    rw [h.pos.1] at hst
    exact List.eq_replicate_iff.mpr ⟨hst, h.zeros r hr hc⟩

/-- Rows of files whose contents did not change. -/
theorem row_same {m : Machine} {fs fs' : FS} {bb' : Block} (hb : bb'.basename = bb.basename) (hf : bb'.fsize = bb.fsize)
    (hr : rowSize m bb' = rowSize m bb)
    (hn : ∀ f, fs'.node (fileKey bb.basename (.data f)) = fs.node (fileKey bb.basename (.data f))) (r : Nat) :
    row m fs' bb' r = row m fs bb r := by
  unfold row rowOff rowFile
  rw [hb, hf, hr, bytes_congr (hn _)]

theorem HoldsH.kept {fs fs' : FS} {bb' : Block} {A : Content} (h : HoldsH env K bb fs H) (hb : bb'.basename = bb.basename)
    (hf : bb'.fsize = bb.fsize) (hh : Holds env K bb' fs' A) (hsz : A.size = H.content.size) (hrows : A.rows = H.content.rows)
    (hn : ∀ f, fs'.node (fileKey bb.basename (.data f)) = fs.node (fileKey bb.basename (.data f))) :
    HoldsH env K bb' fs' ⟨A, H.sizes⟩ := by
  have hrs : rowSize env.m bb' = rowSize env.m bb := by
    rw [h.pos.1]
    unfold rowSize
    rw [hh.ok.item, hh.ok.memb]
    rfl
  have hrow := row_same hb hf hrs hn
  have hre : ∀ r, Holey.reached ⟨A, H.sizes⟩ r ↔ H.reached r := by
    intro r
    unfold Holey.reached
    simp only [hrows]
  refine ⟨hh, hf.trans h.sizes, fun r hr => ?_, fun r hr hn => ?_⟩
  · rw [hre, ← h.reach r (by rw [← hsz]; exact hr)]
    unfold Stored
    rw [hrow, hrs]
  · rw [hrow]
    exact h.zeros r (by rw [← hsz]; exact hr) (by rw [← hrows]; exact hn)

/-- The rows of a step that was taken. -/
theorem HoldsH.step {bb' : Block} {w' : World} {x : BAns} (h : HoldsH env K bb w.fs H) (op : BOp)
    (d : StepDone env K bb H.content w op x bb' w') (hl : H.content.legal env K op) :
    HoldsH env K bb' w'.fs (H.next env K op) := by
  have hL := h.holds.ok.layout
  have hsum : H.sizes.sum = H.content.size := by rw [← h.sizes, ← hL.size]; exact h.holds.size
  have hwr : ∀ r, (H.content.rows r).isSome = true → r < H.content.size := by
    intro r hr
    obtain ⟨bytes, hb⟩ := Option.isSome_iff_exists.mp hr
    exact (h.holds.rows r bytes hb).1
  cases op with
  | read p a mem sw =>
    exact h.kept d.base d.sizes d.holds rfl rfl d.effect
  | attr op => exact h.kept d.base d.sizes d.holds rfl rfl d.effect
  | flush =>
    refine h.kept d.base d.sizes d.holds ?_ ?_ d.effect <;> (simp only [Content.next]; split <;> rfl)
  | reopen =>
    refine h.kept d.base d.sizes d.holds ?_ ?_ d.effect <;> (simp only [Content.next]; split <;> rfl)
  | write p a mem sw =>
    have hfs := d.effect
    simp only [DataEffect] at hfs
    by_cases hin : p + a.size / K.nm ≤ H.content.size
    · rw [if_pos hin] at hfs
      obtain ⟨hrs, hpos⟩ := h.pos
      have hrs' : rowSize env.m bb' = rowSize env.m bb := by
        rw [hrs]
        unfold rowSize
        rw [d.holds.ok.item, d.holds.ok.memb]
        rfl
      have hlen : ∀ i, i < a.size / K.nm → (arrayRow env K a mem sw i).length = rowSize env.m bb := by
        intro i hi
        obtain ⟨hp, ha, hdis, hconv⟩ := hl
        unfold arrayRow
        rw [hrs]
        refine rowOfElems_length _ K.w K.nm _ (fun e he => ?_) i hi
        obtain ⟨b, hb⟩ := Option.isSome_iff_exists.mp (hconv hin e he)
        simp only [hb, Option.getD_some]
        refine (ha.xferOk h.holds.ok).out_length mem e b ?_
        rw [h.holds.kind]
        exact hb
      have hfile : ∀ i, i < a.size / K.nm → IsFile w.fs (fileKey bb.basename (.data (rowFile bb (p + i)))) := by
        intro i hi
        apply h.holds.data
        rw [← hL.nfile]
        exact (locate_lt bb.fsize (p + i) (by rw [h.sizes, hsum]; omega)).1
      have hbb : bb'.fsize = bb.fsize := d.sizes
      have hrow : ∀ r, row env.m w'.fs bb' r = row env.m w'.fs bb r :=
        fun r => row_same d.base hbb hrs' (fun _ => rfl) r
      have hst : ∀ r, Stored env.m w'.fs bb' r ↔ Stored env.m w'.fs bb r := by
        intro r
        unfold Stored
        rw [hrow, hrs']
      have hnr : ∀ r, (Content.next env K H.content (.write p a mem sw)).rows r =
          if p ≤ r ∧ r < p + a.size / K.nm then some (arrayRow env K a mem sw (r - p)) else H.content.rows r := by
        intro r
        simp only [Content.next]
        rw [if_pos hin]
      have hns : (Content.next env K H.content (.write p a mem sw)).size = H.content.size := by
        simp only [Content.next]
        rw [if_pos hin]
      refine ⟨d.holds, hbb.trans h.sizes, fun r hr => ?_, fun r hr hn => ?_⟩
      · rw [hst, hfs, stored_putRows env.m w.fs p r _ _ hpos hfile hlen,
          h.reach r (by simp only [Holey.next] at hr; rw [hns] at hr; exact hr)]
        unfold Holey.reached rowFile
        simp only [Holey.next, hnr, h.sizes]
        constructor
        · rintro (⟨r', h1, h2, h3⟩ | ⟨i, h1, h2, h3⟩)
          · refine ⟨r', h1, h2, ?_⟩
            split
            · rfl
            · exact h3
          · exact ⟨p + i, h3, h2, by rw [if_pos ⟨by omega, by omega⟩]; rfl⟩
        · rintro ⟨r', h1, h2, h3⟩
          by_cases hc : p ≤ r' ∧ r' < p + a.size / K.nm
          · refine Or.inr ⟨r' - p, by omega, ?_, by omega⟩
            rw [show p + (r' - p) = r' by omega]
            exact h2
          · rw [if_neg hc] at h3
            exact Or.inl ⟨r', h1, h2, h3⟩
      · simp only [Holey.next] at hr hn
        rw [hns] at hr
        rw [hnr] at hn
        by_cases hc : p ≤ r ∧ r < p + a.size / K.nm
        · rw [if_pos hc] at hn
          cases hn
        · rw [if_neg hc] at hn
          rw [hrow, hfs]
          exact zeros_putRows env.m w.fs p r _ _ (by omega) hlen (h.zeros r hr hn)
    · rw [if_neg hin] at hfs
      refine h.kept d.base d.sizes d.holds ?_ ?_ (fun f => by rw [hfs]) <;>
        (simp only [Content.next]; rw [if_neg hin])
  | grow new =>
    have hfs : w'.fs = truncFS bb.basename bb.nfile new.length w.fs := d.effect
    have hbb : bb'.fsize = bb.fsize ++ new := d.sizes
    have hsz : (Content.next env K H.content (.grow new)).size = H.content.size + new.sum := rfl
    obtain ⟨hrs, hpos⟩ := h.pos
    have hrs' : rowSize env.m bb' = rowSize env.m bb := by
      rw [hrs]
      unfold rowSize
      rw [d.holds.ok.item, d.holds.ok.memb]
      rfl
    have hloc : ∀ r, r < H.content.size → locate (H.sizes ++ new) r = locate H.sizes r :=
      fun r hr => locate_append _ _ r (by rw [hsum]; exact hr)
    have hre : ∀ r, r < H.content.size → ((H.next env K (.grow new)).reached r ↔ H.reached r) := by
      intro r hr
      unfold Holey.reached
      simp only [Holey.next, Content.next]
      constructor
      · rintro ⟨r', h1, h2, h3⟩
        rw [hloc r hr, hloc r' (hwr r' h3)] at h2
        exact ⟨r', h1, h2, h3⟩
      · rintro ⟨r', h1, h2, h3⟩
        exact ⟨r', h1, by rw [hloc r hr, hloc r' (hwr r' h3)]; exact h2, h3⟩
    have hold : ∀ r, r < H.content.size → row env.m w'.fs bb' r = row env.m w.fs bb r := by
      intro r hr
      unfold row rowOff rowFile
      rw [d.base, hbb, hrs', h.sizes, hloc r hr]
      rw [bytes_congr (show w'.fs.node (fileKey bb.basename (.data (locate H.sizes r).1)) =
          w.fs.node (fileKey bb.basename (.data (locate H.sizes r).1)) from ?_)]
      rw [hfs]
      refine truncFS_other _ _ _ _ _ (fun f h1 _ => fileKey_ne ?_)
      have : (locate bb.fsize r).1 < bb.fsize.length := (locate_lt bb.fsize r (by rw [h.sizes, hsum]; exact hr)).1
      rw [hL.nfile, h.sizes] at this
      simp
      omega
    have hnew : ∀ r, H.content.size ≤ r → r < H.content.size + new.sum → row env.m w'.fs bb' r = [] := by
      intro r hr hr2
      have hlt : r < (bb.fsize ++ new).sum := by rw [List.sum_append, h.sizes, hsum]; exact hr2
      have h1 := (locate_lt _ r hlt).1
      have h3 := locate_start (bb.fsize ++ new) r
      have h2 := (locate_lt _ r hlt).2
      have h4 : bb.nfile ≤ (locate (bb.fsize ++ new) r).1 := by
        rw [← hL.nfile]
        rcases Nat.lt_or_ge (locate (bb.fsize ++ new) r).1 bb.fsize.length with h5 | h5
        · exfalso
          have h6 : start (bb.fsize ++ new) ((locate (bb.fsize ++ new) r).1 + 1) ≤ bb.fsize.sum := by
            unfold start
            rw [List.take_append_of_le_length (by omega)]
            exact start_le _ _
          rw [h.sizes, hsum] at h6
          rw [h.sizes] at h2
          omega
        · exact h5
      unfold row rowFile
      have : w'.fs.node (fileKey bb.basename (.data (locate (bb.fsize ++ new) r).1)) = some (.file []) := by
        rw [hfs]
        refine truncFS_data _ _ _ _ _ h4 ?_
        rw [← hL.nfile, ← List.length_append]
        exact h1
      rw [d.base, hbb]
      unfold FS.bytes
      rw [this]
      simp
    refine ⟨d.holds, by rw [hbb, h.sizes]; rfl, fun r hr => ?_, fun r hr hn => ?_⟩
    · by_cases hlt : r < H.content.size
      · rw [hre r hlt, ← h.reach r hlt]
        unfold Stored
        rw [hold r hlt, hrs']
      · constructor
        · intro hs
          unfold Stored at hs
          rw [hnew r (by omega) hr, hrs'] at hs
          simp at hs
          omega
        · rintro ⟨r', h1, _, h3⟩
          exact absurd (hwr r' h3) (by omega)
    · by_cases hlt : r < H.content.size
      · rw [hold r hlt]
        exact h.zeros r hlt hn
      · rw [hnew r (by omega) hr]
        intro b hb
        cases hb

/-- What reading needs: a handle, and that its rows are stored as far as they should be and hold what they should. -/
structure RowsH (env : Env) (K : Kind) (bb : Block) (fs : FS) (H : Holey) : Prop where
  ok : BlockOk env bb K.w K.nm
  kind : dtypeNormalize env.m bb.dtype = K.dtype
  size : bb.size = H.content.size
  reach : ∀ r, r < H.content.size → (Stored env.m fs bb r ↔ H.reached r)
  shown : ∀ r, r < H.content.size → H.reached r → row env.m fs bb r = H.shown K r

theorem HoldsH.rowsH {fs : FS} (h : HoldsH env K bb fs H) : RowsH env K bb fs H :=
  ⟨h.holds.ok, h.holds.kind, h.holds.size, h.reach, fun _ hr hs => h.row_eq hr hs⟩

/-- A read of any rows. -/
theorem RowsH.read (h : RowsH env K bb w.fs H) (hnf : w.faults = noFaults) (p : Nat) (a : Arr) (mem : Mem) (sw : Nat)
    (hl : H.legal env K (.read p a mem sw)) :
    ∃ x w', runBOp env bb (.read p a mem sw) w = .ok (x, bb) w' ∧ w'.faults = noFaults ∧ w'.fs = w.fs ∧
      H.answers env K (.read p a mem sw) x := by
  obtain ⟨hp, ha, hdis, hsup, hconv⟩ := hl
  have hx := ha.xferOk h.ok
  have hL := h.ok.layout
  have hnm := h.ok.memb0
  by_cases hin : p + a.size / K.nm ≤ H.content.size
  · obtain ⟨q, hq, hpt⟩ := (seek_row hL p hp).1 (by rw [h.size]; exact Nat.le_trans (Nat.le_add_right _ _) hin)
    let out : Nat → List Byte := fun e => (fromBlock env K a (H.shown K (p + e / K.nm)) (e % K.nm)).getD []
    have hout : ∀ e, e < a.size / K.nm * K.nm → H.reached (p + e / K.nm) →
        fromBlock env K a (H.shown K (p + e / K.nm)) (e % K.nm) = some (out e) := by
      intro e he hr
      obtain ⟨b, hb⟩ := Option.isSome_iff_exists.mp
        (hconv hin (e / K.nm) ((Nat.div_lt_iff_lt_mul hnm).mpr he) hr (e % K.nm) (Nat.mod_lt _ hnm))
      show _ = some ((fromBlock env K a (H.shown K (p + e / K.nm)) (e % K.nm)).getD [])
      rw [hb]
      rfl
    have hlt : ∀ i, i < a.size / K.nm → p + i < H.content.size := fun i hi => by omega
    have hr : LegalRead env w.fs bb q a p K.w sw K.nm out := by
      refine ⟨hx, hpt, by rw [h.size]; exact hin, by rw [h.kind]; exact hsup, fun e he hs => ?_⟩
      have hi := hlt _ ((Nat.div_lt_iff_lt_mul hnm).mpr he)
      have hre := (h.reach _ hi).mp hs
      unfold elemOfRows
      rw [h.shown _ hi hre, h.kind]
      exact hout e he hre
    obtain ⟨x, w1, e1, d⟩ := wpc_returns (hr.spec (wd := w) (mem := mem)) (fun _ hc => hc.2 hnf)
    refine ⟨⟨x.rc, x.mem, none⟩, w1, ?_, d.faults.trans hnf, d.fs, ?_⟩
    · unfold runBOp
      show M.bind (M.lift _) _ w = _
      rw [hq]
      show M.bind (blockRead env bb q a mem) _ w = _
      unfold M.bind
      rw [e1]
      show Res.ok (_, x.bb) w1 = _
      rw [d.same]
    · simp only [Holey.answers]
      rw [if_pos hin]
      refine ⟨fun hall => ?_, fun hnot => ?_, fun y hy => d.memframe y (by simpa using hy)⟩
      · have hrc := d.succeeds hnf (fun i hi => (h.reach _ (hlt i hi)).mpr (hall i hi))
        refine ⟨hrc, fun i hi j hj => ?_⟩
        have he : i * K.nm + j < a.size / K.nm * K.nm := by
          calc i * K.nm + j < i * K.nm + K.nm := by omega
            _ = (i + 1) * K.nm := (Nat.succ_mul _ _).symm
            _ ≤ _ := Nat.mul_le_mul_right _ hi
        have hdv : (i * K.nm + j) / K.nm = i := by
          rw [Nat.mul_comm, Nat.mul_add_div hnm, Nat.div_eq_of_lt hj]; rfl
        have hmd : (i * K.nm + j) % K.nm = j := by
          rw [Nat.mul_comm, Nat.mul_add_mod, Nat.mod_eq_of_lt hj]
        have h2 := hout (i * K.nm + j) he (by rw [hdv]; exact hall i hi)
        have := (d.done hrc).2.2 hdis (i * K.nm + j) he
        simp only [Nat.zero_mul, Nat.zero_add] at this
        rw [hdv, hmd] at h2
        show _ = some (peek x.mem _ sw)
        rw [h2, this]
      · refine (d.failed fun hrc => hnot fun i hi => ?_).1
        exact (h.reach _ (hlt i hi)).mp ((d.done hrc).1 i hi)
  · have hans : ∀ x : BAns, x.rc = -1 → x.mem = mem → H.answers env K (.read p a mem sw) x := by
      intro x h1 h2
      simp only [Holey.answers]
      rw [if_neg hin]
      exact ⟨h1, h2⟩
    by_cases hps : p ≤ H.content.size
    · obtain ⟨q, hq, hpt⟩ := (seek_row hL p hp).1 (by rw [h.size]; omega)
      have e1 := blockRead_range env bb a K.w sw K.nm hx q p mem w hpt (by rw [← hL.size, h.size]; exact hps)
        (by rw [← hL.size, h.size]; omega)
      refine ⟨⟨-1, mem, none⟩, w, ?_, hnf, rfl, hans _ rfl rfl⟩
      unfold runBOp
      show M.bind (M.lift _) _ w = _
      rw [hq]
      show M.bind (blockRead env bb q a mem) _ w = _
      unfold M.bind
      rw [e1]
      rfl
    · refine ⟨⟨-1, mem, none⟩, w, ?_, hnf, rfl, hans _ rfl rfl⟩
      unfold runBOp
      show M.bind (M.lift _) _ w = _
      rw [(seek_row hL p hp).2 (by rw [h.size]; omega)]
      rfl

/-- One operation. -/
theorem holey_step (h : HoldsH env K bb w.fs H) (hnf : w.faults = noFaults) (op : BOp) (hl : H.legal env K op) :
    ∃ x bb' w', runBOp env bb op w = .ok (x, bb') w' ∧ w'.faults = noFaults ∧ bb'.basename = bb.basename ∧
      H.answers env K op x ∧ HoldsH env K bb' w'.fs (H.next env K op) := by
  cases op with
  | read p a mem sw =>
    obtain ⟨x, w', e, h1, h2, h3⟩ := h.rowsH.read hnf p a mem sw hl
    exact ⟨x, bb, w', e, h1, rfl, h3, by rw [h2]; exact h⟩
  | write p a mem sw =>
    obtain ⟨x, bb', w', e, d⟩ := bop_step h.holds hnf (.write p a mem sw) hl
    exact ⟨x, bb', w', e, d.faults, d.base, d.ans, h.step _ d hl⟩
  | grow new =>
    obtain ⟨x, bb', w', e, d⟩ := bop_step h.holds hnf (.grow new) hl
    exact ⟨x, bb', w', e, d.faults, d.base, d.ans, h.step _ d hl⟩
  | attr op =>
    obtain ⟨x, bb', w', e, d⟩ := bop_step h.holds hnf (.attr op) hl
    exact ⟨x, bb', w', e, d.faults, d.base, d.ans, h.step _ d hl⟩
  | flush =>
    obtain ⟨x, bb', w', e, d⟩ := bop_step h.holds hnf .flush hl
    exact ⟨x, bb', w', e, d.faults, d.base, d.ans, h.step _ d hl⟩
  | reopen =>
    obtain ⟨x, bb', w', e, d⟩ := bop_step h.holds hnf .reopen hl
    exact ⟨x, bb', w', e, d.faults, d.base, d.ans, h.step _ d hl⟩

end Verif
