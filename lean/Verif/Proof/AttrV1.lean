import Verif.Proof.AttrText
import Verif.Proof.Value
import Verif.Proof.Dtype
/-!
# Reading attribute files
-/

set_option autoImplicit false

namespace Verif

open Spec

theorem i32_natDec {m : Machine} {n : Nat} (h : n < 2147483648) : i32 (natDec m (natEnc m 4 n)) = n := by
  rw [natDec_natEnc]
  simp only [i32]
  rw [show (256:Nat)^4 = 4294967296 from rfl]
  omega

theorem takeWhile_pad {d : CStr} (h : (0 : Byte) ∉ d) (n : Nat) :
    (d ++ List.replicate n 0).takeWhile (fun x => decide (x ≠ 0)) = d := by
  induction d with
  | nil =>
    cases n with
    | zero => rfl
    | succ n => simp [List.replicate_succ]
  | cons a t ih =>
    simp only [List.mem_cons, not_or] at h
    rw [List.cons_append, List.takeWhile_cons_of_pos (by simpa using fun h' => h.1 h'.symm), ih h.2]


/-- One record. -/
theorem parseV1_rec {env : Env} {s : AttrSet} {es : List Entry} (h : AttrInv env.m s es) {r : RecV1}
    (hr : r.Ok env.m) (rest : List Byte) (fuel : Nat) :
    ∃ s' es', parseV1 env (fuel + 1) (r.encode env.m ++ rest) s = parseV1 env fuel rest s' ∧
      AttrInv env.m s' es' ∧ findE es' = (findE es).put r.name (r.val env.m) := by
  obtain ⟨i1, i2⟩ := valid_item env.m r.dtype hr.valid hr.short
  obtain ⟨w, hw⟩ : ∃ w : Nat, itemsize env.m r.dtype = w := ⟨_, (Int.toNat_of_nonneg (by omega)).symm⟩
  have hnb := hr.nbytes
  have hfits := hr.fits
  have hnl := hr.nameLen
  have hnm := hr.nmemb
  have hsh := hr.short
  rw [hw] at hnb i1 i2
  have hwn : r.bytes.length = w * r.nmemb := by
    have : ((w * r.nmemb : Nat) : Int) = (w : Int) * r.nmemb := Int.natCast_mul _ _
    omega
  have hn1 : r.nmemb ≤ w * r.nmemb := Nat.le_mul_of_pos_left _ (by omega)
  have hb0 : 0 < r.bytes.length := by omega
  have hn0 : 0 < r.name.length := List.length_pos_iff.mpr hr.nameNe
  have e1 : ∀ X, (natEnc env.m 4 r.nmemb ++ X).take 4 = natEnc env.m 4 r.nmemb := by
    intro X; rw [List.take_append_of_le_length (by rw [natEnc_length]; omega), List.take_of_length_le (by rw [natEnc_length]; omega)]
  have e2 : ∀ X n, (natEnc env.m 4 n ++ X).drop 4 = X := by
    intro X n; rw [List.drop_append_of_le_length (by rw [natEnc_length]; omega), List.drop_of_length_le (by rw [natEnc_length]; omega)]; rfl
  have e3 : ∀ X, (natEnc env.m 4 r.name.length ++ X).take 4 = natEnc env.m 4 r.name.length := by
    intro X; rw [List.take_append_of_le_length (by rw [natEnc_length]; omega), List.take_of_length_le (by rw [natEnc_length]; omega)]
  let D := r.dtype ++ List.replicate (8 - r.dtype.length) (0 : Byte)
  have hD : D.length = 8 := by simp [D]; omega
  have hform : r.encode env.m ++ rest = natEnc env.m 4 r.nmemb ++ (natEnc env.m 4 r.name.length ++ (D ++ (r.name ++ (r.bytes ++ rest)))) := by
    simp [RecV1.encode, D]
  have e4 : ∀ X, (D ++ X).take 8 = D := by
    intro X; rw [List.take_append_of_le_length (by omega), List.take_of_length_le (by omega)]
  have e5 : ∀ X, (natEnc env.m 4 r.name.length ++ (D ++ X)).drop 12 = X := by
    intro X
    rw [show 12 = 4 + 8 by rfl, ← List.drop_drop, e2, List.drop_append_of_le_length (by omega),
      List.drop_of_length_le (by omega)]; rfl
  have h0 : (0 : Byte) ∉ r.name := fun h0 => (hr.clean 0 h0).1 rfl
  have hrec : recV1 env (r.encode env.m ++ rest) = some (some (r.name, r.dtype, (r.nmemb : Int), r.bytes, rest)) := by
   rw [hform]
   unfold recV1
   dsimp only
   rw [e1, e2, i32_natDec (by omega),
    if_neg (by simp only [List.length_append, natEnc_length]; omega), e3, e2, e4, e5, i32_natDec hnl,
    takeWhile_pad hr.nonul, hr.valid]
   simp only [Bool.not_true, Bool.false_eq_true, if_false]
   rw [hw, ← hnb]
   rw [if_neg (by simp [fitsInt]; omega)]
   simp only [Int.toNat_natCast]
   rw [if_neg (by simp only [Bool.or_eq_true, decide_eq_true_eq, List.length_append]; omega),
     if_neg (by simp only [Bool.or_eq_true, decide_eq_true_eq, List.length_append]; omega)]
   have t1 : (r.name ++ (r.bytes ++ rest)).take r.name.length = r.name := by simp
   have t2 : (r.name ++ (r.bytes ++ rest)).drop r.name.length = r.bytes ++ rest := by simp
   have t3 : (r.bytes ++ rest).take r.bytes.length = r.bytes := by simp
   have t4 : (r.bytes ++ rest).drop r.bytes.length = rest := by simp
   have t5 : r.name.takeWhile (fun x => decide (x ≠ 0)) = r.name := by
     have := takeWhile_pad h0 0
     simpa using this
   rw [t1, t2, t3, t4, t5]
  rw [parseV1, if_neg (by rw [hform]; simp only [List.length_append, natEnc_length]; omega), hrec]
  simp only
  obtain ⟨s', es', sm', k1, k2, k3, _⟩ := setAttr_spec h r.name r.dtype r.nmemb (poke env.junk 0 r.bytes) 0
    h0 (by omega) (by rw [hw, ← hnb]; omega) (by omega) hr.clean.hasBlank
  rw [k1]
  refine ⟨s', es', by simp, k2, ?_⟩
  rw [k3]
  have hwid : widthOf env.m r.dtype = w := by unfold widthOf; rw [hw]; rfl
  rw [hwid, ← hwn, peek_poke_same]
  rfl

/-- **All records of an old file.** Up to three bytes after the last record are ignored. -/
theorem parseV1_spec {env : Env} (rs : List RecV1) : ∀ {s : AttrSet} {es : List Entry}, AttrInv env.m s es →
    (∀ r ∈ rs, r.Ok env.m) → ∀ (tail : List Byte) (fuel : Nat), tail.length < 4 →
    ∃ s' es', parseV1 env (rs.length + (fuel + 1)) (fileV1 env.m rs ++ tail) s = some (0, s') ∧
      AttrInv env.m s' es' ∧ findE es' = putRecs env.m (findE es) rs := by
  induction rs with
  | nil =>
    intro s es h _ tail fuel ht
    refine ⟨s, es, ?_, h, rfl⟩
    simp only [List.length_nil, Nat.zero_add, fileV1, List.nil_append, parseV1]
    rw [if_pos ht]
  | cons r rs ih =>
    intro s es h hr tail fuel ht
    obtain ⟨s1, es1, k1, k2, k3⟩ := parseV1_rec h (hr r (by simp)) (fileV1 env.m rs ++ tail) (rs.length + (fuel + 1))
    obtain ⟨s', es', j1, j2, j3⟩ := ih k2 (fun r hr' => hr r (by simp [hr'])) tail fuel ht
    refine ⟨s', es', ?_, j2, ?_⟩
    · rw [List.length_cons, show rs.length + 1 + (fuel + 1) = rs.length + (fuel + 1) + 1 by omega]
      show parseV1 env _ (r.encode env.m ++ fileV1 env.m rs ++ tail) s = _
      rw [List.append_assoc, k1, j1]
    · rw [j3, k3]; rfl

theorem fileV1_length (m : Machine) (rs : List RecV1) : rs.length ≤ (fileV1 m rs).length := by
  induction rs with
  | nil => exact Nat.le_refl _
  | cons r rs ih =>
    simp only [fileV1, List.length_append, List.length_cons, RecV1.encode, natEnc_length]
    omega

/-- **All lines of a text file.** -/
theorem parseV2_text {env : Env} (ls : List (CStr × AttrVal × CStr)) : ∀ {s : AttrSet} {es : List Entry},
    AttrInv env.m s es →
    (∀ l ∈ ls, Storable l.1 l.2.1 ∧ Typed env.m l.2.1 ∧ OneLine l.2.2) → ∀ fuel : Nat,
    ∃ s' es', parseV2 env (ls.length + (fuel + 1)) (textV2 ls) s = some (0, s') ∧
      AttrInv env.m s' es' ∧ findE es' = putLines (findE es) ls := by
  induction ls with
  | nil =>
    intro s es h _ fuel
    exact ⟨s, es, by simp [textV2, parseV2], h, rfl⟩
  | cons l ls ih =>
    intro s es h hl fuel
    obtain ⟨name, v, t⟩ := l
    obtain ⟨h1, h2, h3⟩ := hl (name, v, t) (by simp)
    obtain ⟨s1, es1, k1, k2, k3⟩ := parseV2_line (e := ⟨0, name, v⟩) h h2 h1 h3 (textV2 ls) (ls.length + (fuel + 1))
    obtain ⟨s', es', j1, j2, j3⟩ := ih k2 (fun l hl' => hl l (by simp [hl'])) fuel
    refine ⟨s', es', ?_, j2, ?_⟩
    · rw [List.length_cons, show ls.length + 1 + (fuel + 1) = ls.length + (fuel + 1) + 1 by omega]
      exact k1.trans j1
    · rw [j3, k3]; rfl

theorem textV2_length (ls : List (CStr × AttrVal × CStr)) : ls.length ≤ (textV2 ls).length := by
  induction ls with
  | nil => exact Nat.le_refl _
  | cons l ls ih =>
    obtain ⟨name, v, t⟩ := l
    simp only [textV2, lineV2, List.length_append, List.length_cons]
    omega

end Verif
