import Verif.Model.Cat
import Verif.Spec.Cat
import Verif.Proof.Copy
/-!
# Printing rows
-/

set_option autoImplicit false

namespace Verif

open Spec

variable {env : Env} {K : Kind} {bb : Block} {A : Content} {w nm : Nat}

/-! ## Text of an element -/

theorem dtypeFormat_text {dt : CStr} (hn : dtypeNormalize env.m dt = dt) {w : Nat} (hw : itemsize env.m dt = w) (hw0 : 0 < w)
    (hw1 : w < 2147483648) (data : Int) (mem : Mem) :
    ∃ t mem', dtypeFormat env dt data mem = some (t, mem') ∧ Only data (data + w) mem mem' ∧
      t.takeWhile (· ≠ 0) = elemText env dt (peek mem data w) ∧ (foreign env.m dt = false ∨ w = 1 → mem' = mem) := by
  obtain ⟨c, tl, hdt, hcc, htl⟩ := normalize_form env.m dt
  rw [hn] at hdt
  subst hdt
  unfold dtypeFormat
  simp only
  rw [hn]
  have hnd : dtypeNormalize env.m (61 :: (c :: tl).drop 1) = env.m.endian :: tl := by
    rw [show (c :: tl).drop 1 = tl from rfl, normalize_eq, List.take_of_length_le htl]
  rw [hnd]
  have hndfix : dtypeNormalize env.m (env.m.endian :: tl) = env.m.endian :: tl :=
    normalize_fix env.m _ tl (endian_cases env.m) htl
  have hwn : itemsize env.m (env.m.endian :: tl) = w := by
    rw [← hw]
    unfold itemsize
    rw [hndfix, hn]
    rfl
  have hnat : foreign env.m (env.m.endian :: tl) = false := by
    simp [foreign, charAt]
  obtain ⟨dm', sm', k1, _, k3, k4, k5, k6⟩ := convertSimple_spec env.m env.fo 0 data (env.m.endian :: tl) (c :: tl)
    1 w w env.junk mem (fun i => toNative env.m (env.m.endian :: tl) (toNative env.m (c :: tl)
      (peek mem (data + (i * w : Nat)) w))) hwn hw hw0 (by omega) (by omega)
    (by rw [hndfix, hn]; unfold convertible; simp)
    (by intro i _; rw [hndfix, hn]; unfold convElem; simp)
  rw [k1]
  refine ⟨_, sm', rfl, ?_, ?_, ?_⟩
  · intro x hx
    exact k5 x (by rw [Nat.mul_one]; exact hx)
  · unfold elemText
    rw [hnd, hwn]
    have := k3 0 (by omega)
    simp only [Nat.zero_mul, Int.natCast_zero, Int.add_zero] at this
    rw [Int.toNat_natCast, this]
    congr 2
    unfold toNative
    rw [hnat]
    simp
  · rintro (h | h)
    · exact k4 (by rw [hn]; exact h)
    · subst h
      funext x
      by_cases hx : x < data ∨ data + (1 * 1 : Nat) ≤ x
      · exact k5 x hx
      · have := k6 0 (by omega)
        unfold toNative at this
        rw [byte_reverse, ite_self] at this
        simp only [peek, List.cons.injEq, and_true] at this
        have hx' : x = data + ((0 * 1 : Nat) : Int) := by omega
        rw [hx']
        exact this

/-! ## Text of the rows of a chunk -/

theorem catRow_spec {a : Arr} {w : Nat} (ha : ArrOk a) (hn : dtypeNormalize env.m a.dtype = a.dtype) (hw : itemsize env.m a.dtype = w)
    (hw0 : 0 < w) (hw1 : w ≤ 128) (hd : Disjoint a w) (v : Nat → List Byte) :
    ∀ (k e0 : Nat) (mem : Mem), e0 + k ≤ a.size → (∀ e, e0 ≤ e → e < a.size → peek mem (elemAddr a e) w = v e) →
    ∃ mem', catRow env a.dtype k (iterAt env.m a e0) mem =
        some (flatN (fun j => elemText env a.dtype (v (e0 + j)) ++ b!" ") k, mem', iterAt env.m a (e0 + k)) ∧
      ∀ e, e0 + k ≤ e → e < a.size → peek mem' (elemAddr a e) w = v e := by
  intro k
  induction k with
  | zero => intro e0 mem _ hv; exact ⟨mem, rfl, hv⟩
  | succ k ih =>
    intro e0 mem hk hv
    have he : e0 < a.size := by omega
    obtain ⟨t, mem1, h1, h2, h3, _⟩ := dtypeFormat_text (env := env) hn hw hw0 (by omega) (elemAddr a e0) mem
    have hv1 : ∀ e, e0 + 1 ≤ e → e < a.size → peek mem1 (elemAddr a e) w = v e := by
      intro e h4 h5
      rw [← hv e (by omega) h5]
      apply peek_ext
      intro i hi
      apply h2
      have := hd e0 e he h5 (by omega)
      omega
    obtain ⟨mem', h4, h5⟩ := ih (e0 + 1) mem1 (by omega) hv1
    refine ⟨mem', ?_, fun e h6 h7 => h5 e (by omega) h7⟩
    rw [catRow, if_neg (by rw [hw]; omega), iterAt_ptr env.m a e0 ha he, h1]
    simp only
    rw [iterAdvance_iterAt env.m a e0 ha]
    simp only
    have e1 : flatN (fun j => elemText env a.dtype (v (e0 + 1 + j)) ++ b!" ") k =
        flatN (fun j => elemText env a.dtype (v (e0 + (1 + j))) ++ b!" ") k :=
      flatN_congr fun i _ => by rw [Nat.add_assoc]
    have e2 : flatN (fun j => elemText env a.dtype (v (e0 + j)) ++ b!" ") 1 = elemText env a.dtype (v e0) ++ b!" " := rfl
    rw [h4, Option.map_some, h3, hv e0 (Nat.le_refl _) he, e1, show k + 1 = 1 + k by omega, flatN_add, e2,
      show e0 + (1 + k) = e0 + 1 + k by omega]

theorem catRows_spec {a : Arr} {w nm : Nat} (ha : ArrOk a) (hn : dtypeNormalize env.m a.dtype = a.dtype)
    (hw : itemsize env.m a.dtype = w) (hw0 : 0 < w) (hw1 : w ≤ 128) (hd : Disjoint a w) (v : Nat → List Byte) :
    ∀ (n r0 : Nat) (mem : Mem), (r0 + n) * nm ≤ a.size → (∀ e, r0 * nm ≤ e → e < a.size → peek mem (elemAddr a e) w = v e) →
    ∃ mem', catRows env a.dtype nm n (iterAt env.m a (r0 * nm)) mem =
        some (flatN (fun i => flatN (fun j => elemText env a.dtype (v ((r0 + i) * nm + j)) ++ b!" ") nm ++ b!"\n") n, mem') := by
  intro n
  induction n with
  | zero => intro r0 mem _ _; exact ⟨mem, rfl⟩
  | succ n ih =>
    intro r0 mem hk hv
    have h0 : r0 * nm + nm ≤ a.size := by
      have : (r0 + 1) * nm ≤ (r0 + (n + 1)) * nm := Nat.mul_le_mul_right _ (by omega)
      rw [Nat.add_mul, Nat.one_mul] at this
      omega
    obtain ⟨mem1, h1, h2⟩ := catRow_spec (env := env) ha hn hw hw0 hw1 hd v nm (r0 * nm) mem h0 hv
    rw [show r0 * nm + nm = (r0 + 1) * nm by rw [Nat.add_mul, Nat.one_mul]] at h1 h2
    obtain ⟨mem', h3⟩ := ih (r0 + 1) mem1 (by rw [show r0 + 1 + n = r0 + (n + 1) by omega]; exact hk) h2
    refine ⟨mem', ?_⟩
    rw [catRows, h1]
    simp only
    have e1 : flatN (fun i => flatN (fun j => elemText env a.dtype (v ((r0 + 1 + i) * nm + j)) ++ b!" ") nm ++ b!"\n") n =
        flatN (fun i => flatN (fun j => elemText env a.dtype (v ((r0 + (1 + i)) * nm + j)) ++ b!" ") nm ++ b!"\n") n :=
      flatN_congr fun i _ => by rw [Nat.add_assoc r0]
    have e2 : flatN (fun i => flatN (fun j => elemText env a.dtype (v ((r0 + i) * nm + j)) ++ b!" ") nm ++ b!"\n") 1 =
        flatN (fun j => elemText env a.dtype (v (r0 * nm + j)) ++ b!" ") nm ++ b!"\n" := rfl
    rw [h3, Option.map_some, e1, show n + 1 = 1 + n by omega, flatN_add, e2]

/-- What a function that prints a chunk does: it shows each row with `render`. -/
def Prints (env : Env) (bb : Block) (w nm : Nat) (print : Arr → Mem → Option (List Byte × Mem)) (render : List Byte → List Byte) : Prop :=
  ∀ (n : Nat) (buf : Int) (mem : Mem) (rows : Nat → List Byte), 0 < n → n * nm * w < 9223372036854775808 →
    (∀ i, i < n → (rows i).length = nm * w) →
    (∀ e, e < n * nm → peek mem (buf + ((e * w : Nat) : Int)) w = ((rows (e / nm)).drop (e % nm * w)).take w) →
    ∃ mem', print (freshArr env.m bb.dtype n nm w buf) mem = some (flatN (fun i => render (rows i)) n, mem')

theorem catBinary_prints (h : BlockOk env bb w nm) : Prints env bb w nm (catBinary env bb) (fun r => r) := by
  intro n buf mem rows _ _ hl hp
  refine ⟨mem, ?_⟩
  unfold catBinary
  rw [h.item, Int.toNat_natCast]
  show some (peek mem buf (n * nm * w), mem) = _
  rw [peek_flatN, ← flatN_flatN]
  congr 2
  apply flatN_congr
  intro i hi
  rw [← flatN_slices (rows i) w nm (hl i hi)]
  apply flatN_congr
  intro j hj
  have hnm := h.memb0
  have he : i * nm + j < n * nm := by
    have := Nat.mul_le_mul_right nm (show i + 1 ≤ n from hi)
    rw [Nat.add_mul] at this
    omega
  rw [hp _ he, Nat.mul_comm i, Nat.mul_add_div hnm, Nat.mul_add_mod, Nat.div_eq_of_lt hj, Nat.mod_eq_of_lt hj]
  rfl

theorem catText_prints (h : BlockOk env bb K.w K.nm) (hk : dtypeNormalize env.m bb.dtype = K.dtype) (hw : K.w ≤ 128) :
    Prints env bb K.w K.nm (catText env bb) (rowText env K) := by
  intro n buf mem rows hn0 hbytes hl hp
  have hx := h.fresh bb.dtype n K.w buf hn0 h.item h.item0 hbytes
  have hd : (freshArr env.m bb.dtype n K.nm K.w buf).dtype = K.dtype := hk
  obtain ⟨mem', h1⟩ := catRows_spec (env := env) (nm := K.nm) hx.arr hx.anorm hx.aitem hx.aitem0 hw (freshArr_disjoint _ _ _ _ _ _)
    (fun e => ((rows (e / K.nm)).drop (e % K.nm * K.w)).take K.w) n 0 mem (by rw [Nat.zero_add]; exact Nat.le_refl _)
    (fun e _ he => by rw [freshArr_addr _ _ _ _ _ _ _ he]; exact hp e he)
  refine ⟨mem', ?_⟩
  unfold catText
  rw [h.memb, Int.toNat_natCast, iterInit_eq]
  rw [Nat.zero_mul] at h1
  show catRows env _ K.nm n _ mem = _
  rw [h1]
  congr 2
  apply flatN_congr
  intro i hi
  unfold rowText
  congr 1
  apply flatN_congr
  intro j hj
  have hnm := h.memb0
  rw [hd, Nat.zero_add, Nat.mul_comm i, Nat.mul_add_div hnm, Nat.mul_add_mod, Nat.div_eq_of_lt hj, Nat.mod_eq_of_lt hj]
  rfl

/-! ## The loop -/

/-- Where the loop ends: it goes on in steps of `c` rows until `stop` is reached, but not beyond the last row. -/
def catEnd (size c stop off : Nat) : Nat := if off < stop then min size (off + (stop - off + (c - 1)) / c * c) else off

theorem catEnd_step {size c stop off : Nat} (hc : 0 < c) (hstop : stop ≤ size) (h : off < stop) :
    catEnd size c stop off = catEnd size c stop (off + min c (size - off)) := by
  unfold catEnd
  rw [if_pos h]
  by_cases h1 : stop - off ≤ c
  · have e1 : (stop - off + (c - 1)) / c = 1 := by
      apply Nat.div_eq_of_lt_le <;> omega
    rw [e1, Nat.one_mul, if_neg (by omega)]
    omega
  · rw [if_pos (by omega)]
    have e2 : min c (size - off) = c := by omega
    rw [e2]
    have e3 : (stop - off + (c - 1)) / c = (stop - (off + c) + (c - 1)) / c + 1 := by
      rw [show stop - off + (c - 1) = stop - (off + c) + (c - 1) + c by omega, Nat.add_div_right _ hc]
    rw [e3, Nat.add_mul, Nat.one_mul]
    congr 1
    omega

theorem catEnd_ge {size c stop off : Nat} (hc : 0 < c) (hstop : stop ≤ size) (hoff : off ≤ size) :
    off ≤ catEnd size c stop off ∧ stop ≤ catEnd size c stop off ∧ catEnd size c stop off ≤ size := by
  unfold catEnd
  split
  · have h1 := Nat.lt_div_mul_add (a := stop - off + (c - 1)) hc
    generalize (stop - off + (c - 1)) / c * c = q at *
    omega
  · omega

theorem catLoop_spec {print : Arr → Mem → Option (List Byte × Mem)} {render : List Byte → List Byte} (h : BlockOk env bb w nm)
    (hpr : Prints env bb w nm print render) (c n stop : Nat) (hc : 0 < c) (hn : c ≤ n) (hstop : stop ≤ bb.size)
    (hch : bb.size + n < 9223372036854775808) (buf : Int) (wd0 : FS) :
    ∀ (fuel : Nat) (chunk off : Nat) (mem : Mem) (out : List Byte) (wd : World), stop - off < fuel → off ≤ bb.size → min chunk n = c →
    wd.fs = wd0 →
    wpc (catLoop env bb print (n : Int) (stop : Int) buf fuel chunk (off : Int) mem out) wd
      (fun x w' => w'.fs = wd0 ∧
        (x.1 = .done → x.2 = out ++ flatN (fun i => render (row env.m wd0 bb (off + i))) (catEnd bb.size c stop off - off)) ∧
        (x.1 ≠ .done → x.1 = .failed ∧ ∃ k, k ≤ catEnd bb.size c stop off - off ∧
          x.2 = out ++ flatN (fun i => render (row env.m wd0 bb (off + i))) k) ∧
        (wd.faults = noFaults → (∀ r, off ≤ r → r < catEnd bb.size c stop off → Stored env.m wd0 bb r) →
          x.1 = .done ∧ w'.faults = noFaults))
      (fun w' => w'.fs = wd0 ∧ wd.faults ≠ noFaults) := by
  intro fuel
  induction fuel with
  | zero => intro chunk off mem out wd hf; omega
  | succ fuel ih =>
    intro chunk off mem out wd hf hoff hmin hwd
    rw [catLoop]
    by_cases hlt : off < stop
    · rw [if_pos (by omega), u64_of_nat (by omega)]
      have hcc : (if chunk > n then n else chunk) = c := by split <;> omega
      rw [hcc, wpc_bind, i64_of_range (by omega) (by omega)]
      generalize hk : min c (bb.size - off) = k
      have hk0 : 0 < k := by omega
      have hbytes : k * nm * w < 9223372036854775808 := by
        have h1 := h.offs
        have h2 := h.layout.size
        have h3 : k * (w * nm) ≤ bb.fsize.sum * (w * nm) := Nat.mul_le_mul_right _ (by omega)
        rw [Nat.mul_assoc, Nat.mul_comm nm]
        omega
      have hspec := C58_read_simple_partial env bb w nm w none off c buf mem wd
        (elemOfRows env.m wd.fs bb off w nm) h h.item h.item0 hoff (by omega) (by rw [hk]; exact hbytes)
        (fun _ => convertible_same _ _ _) (fun e _ _ => convElem_same _ _ _ _)
      rw [hk] at hspec
      have hge := catEnd_ge hc hstop hoff
      have hstep := catEnd_step hc hstop hlt
      rw [hk] at hstep
      have hge' := catEnd_ge (off := off + k) hc hstop (by omega)
      rw [← hstep] at hge'
      apply wpc_mono hspec
      · rintro ⟨rc, arr, mem1⟩ w1 r1
        simp only
        by_cases hrc : rc = 0
        · obtain ⟨ha, hst, hm⟩ := r1.done hrc
          simp only at ha hm
          subst ha
          simp only
          rw [hwd] at hst hm
          obtain ⟨mem2, hp⟩ := hpr k buf mem1 (fun i => row env.m wd0 bb (off + i)) hk0 hbytes
            (fun i hi => by
              have := hst i hi
              unfold Stored at this
              rw [this]
              unfold rowSize
              rw [h.item, h.memb]
              simp [Nat.mul_comm])
            (fun e he => hm e he)
          rw [wpc_bind, show freshArr env.m ((none : Option CStr).getD bb.dtype) k nm w buf = freshArr env.m bb.dtype k nm w buf from rfl,
            hp, wpc_lift_some]
          simp only
          show wpc (catLoop env bb print (n : Int) (stop : Int) buf fuel c ((off : Int) + (([k, nm].headD 0 : Nat) : Int)) mem2 _) w1 _ _
          rw [show ((off : Int) + (([k, nm].headD 0 : Nat) : Int)) = ((off + k : Nat) : Int) by simp]
          have hsplit : ∀ q, flatN (fun i => render (row env.m wd0 bb (off + i))) k ++
              flatN (fun i => render (row env.m wd0 bb (off + k + i))) q =
              flatN (fun i => render (row env.m wd0 bb (off + i))) (k + q) := by
            intro q
            rw [flatN_add]
            congr 1
            apply flatN_congr
            intro i _
            rw [Nat.add_assoc]
          apply wpc_mono (ih c (off + k) mem2 _ w1 (by omega) (by omega) (by omega) (r1.fs.trans hwd))
          · rintro ⟨e, o⟩ w2 ⟨g1, g2, g3, g4⟩
            refine ⟨g1, fun he => ?_, fun he => ?_, fun hnf hall => ?_⟩
            · rw [g2 he, List.append_assoc, hsplit, hstep]
              congr 2
              omega
            · obtain ⟨g5, q, g6, g7⟩ := g3 he
              refine ⟨g5, k + q, by omega, ?_⟩
              rw [g7, List.append_assoc, hsplit]
            · exact g4 (r1.faults.trans hnf) (fun r hr1 hr2 => hall r (by omega) (by omega))
          · rintro w2 ⟨g1, g2⟩
            exact ⟨g1, fun hnf => g2 (r1.faults.trans hnf)⟩
        · obtain ⟨_, ha⟩ := r1.failed hrc
          simp only at ha
          subst ha
          simp only
          rw [wpc_pure]
          refine ⟨r1.fs.trans hwd, fun he => by simp at he, fun _ => ⟨rfl, 0, by omega, by simp [flatN]⟩, fun hnf hall => ?_⟩
          exact absurd (r1.succeeds hnf (fun i hi => by rw [hwd]; exact hall _ (by omega) (by omega))) hrc
      · rintro w1 ⟨g1, g2⟩
        exact ⟨g1.trans hwd, g2⟩
    · rw [if_neg (by omega), wpc_pure]
      have : catEnd bb.size c stop off = off := by unfold catEnd; rw [if_neg hlt]
      rw [this, Nat.sub_self]
      exact ⟨hwd, fun _ => by simp [flatN], fun he => absurd rfl he, fun hnf _ => ⟨rfl, hnf⟩⟩

end Verif
