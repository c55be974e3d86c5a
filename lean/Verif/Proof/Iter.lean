import Verif.Spec.Array
/-!
# Iterators visit the elements in row-major order
-/

set_option autoImplicit false

namespace Verif

open Spec

/-- The iterator of array `a` standing at element `k`. -/
def iterAt (m : Machine) (a : Arr) (k : Nat) : Iter :=
  let c := (contigCheck (itemsize m a.dtype) a.dims a.strides).1
  { arr := a
    pos := if c then List.replicate a.dims.length 0 else unravel a.dims k
    contiguous := c
    ptr := if c then a.data + k * itemsize m a.dtype else elemAddr a k }

theorem prodN_pos {dims : List Nat} (h : ∀ d ∈ dims, 0 < d) : 0 < prodN dims := by
  induction dims with
  | nil => simp [prodN]
  | cons d ds ih =>
    simp only [prodN]
    exact Nat.mul_pos (h d (by simp)) (ih fun x hx => h x (by simp [hx]))

theorem pos_of_prodN {dims : List Nat} (h : 0 < prodN dims) : ∀ d ∈ dims, 0 < d := by
  induction dims with
  | nil => simp
  | cons d ds ih =>
    simp only [prodN] at h
    have h1 : 0 < d := Nat.pos_of_mul_pos_right h
    have h2 : 0 < prodN ds := Nat.pos_of_mul_pos_left h
    intro x hx
    rcases List.mem_cons.mp hx with rfl | hx
    · exact h1
    · exact ih h2 x hx

theorem unravel_length (dims : List Nat) (k : Nat) : (unravel dims k).length = dims.length := by
  induction dims with
  | nil => rfl
  | cons d ds ih => simp [unravel, ih]

theorem unravel_zero {dims : List Nat} : unravel dims 0 = List.replicate dims.length 0 := by
  induction dims with
  | nil => rfl
  | cons d ds ih => simp [unravel, ih, List.replicate_succ]

theorem dot_zero (n : Nat) (ss : List Int) : dot (List.replicate n 0) ss = 0 := by
  induction n generalizing ss with
  | zero => simp [dot]
  | succ n ih =>
    cases ss with
    | nil => simp [dot, List.replicate_succ]
    | cons s ss => simp [dot, List.replicate_succ, ih]

/-- One step of the carry loop. -/
theorem carry_spec (dims : List Nat) (ss : List Int) (k : Nat) (hne : dims ≠ [])
    (hlen : ss.length = dims.length) (hpos : ∀ d ∈ dims, 0 < d) :
    carry dims ss (unravel dims k) =
      (unravel dims (k + 1), dot (unravel dims (k + 1)) ss - dot (unravel dims k) ss,
        decide ((k + 1) % prodN dims = 0)) := by
  induction dims generalizing ss with
  | nil => exact absurd rfl hne
  | cons d ds ih =>
    match ss, hlen with
    | s :: ss, hlen =>
      have hd : 0 < d := hpos d (by simp)
      cases ds with
      | nil =>
        match ss, hlen with
        | [], _ =>
          simp only [unravel, prodN, carry, Nat.div_one, dot, Nat.mul_one]
          have hlt : k % d < d := Nat.mod_lt _ hd
          by_cases h : k % d + 1 = d
          · have h1 : (k + 1) % d = 0 := by
              rw [Nat.add_mod]
              by_cases hd1 : d = 1
              · subst hd1; omega
              · have : 1 % d = 1 := Nat.mod_eq_of_lt (by omega)
                rw [this, h, Nat.mod_self]
            simp only [h1, h, if_true, decide_true]
            have : ((d : Nat) : Int) = ((k % d : Nat) : Int) + 1 := by omega
            simp only [Prod.mk.injEq, true_and, and_true]
            rw [this, Int.mul_add, Int.mul_comm s]
            simp
            omega
          · have h1 : (k + 1) % d = k % d + 1 := by
              rw [Nat.add_mod]
              have hd1 : 1 < d := by omega
              rw [Nat.mod_eq_of_lt hd1]
              exact Nat.mod_eq_of_lt (by omega)
            simp only [h, if_false, h1]
            simp only [Prod.mk.injEq, true_and]
            refine ⟨?_, by simp⟩
            have : (((k % d + 1 : Nat)) : Int) = ((k % d : Nat) : Int) + 1 := by omega
            rw [this, Int.add_mul]
            simp
            omega
      | cons d' ds' =>
        have hlen' : ss.length = (d' :: ds').length := by simpa using hlen
        have hpos' : ∀ x ∈ d' :: ds', 0 < x := fun x hx => hpos x (by simp [hx])
        have IH := ih ss (by simp) hlen' hpos'
        have hP : 0 < prodN (d' :: ds') := prodN_pos hpos'
        have e1 : unravel (d :: d' :: ds') k =
            (k / prodN (d' :: ds')) % d :: unravel (d' :: ds') k := rfl
        have e2 : unravel (d :: d' :: ds') (k + 1) =
            ((k + 1) / prodN (d' :: ds')) % d :: unravel (d' :: ds') (k + 1) := rfl
        have e3 : prodN (d :: d' :: ds') = d * prodN (d' :: ds') := rfl
        rw [e1, e2, e3]
        generalize hPdef : prodN (d' :: ds') = P at *
        have hcons : carry (d :: d' :: ds') (s :: ss) (k / P % d :: unravel (d' :: ds') k) =
            (match carry (d' :: ds') ss (unravel (d' :: ds') k) with
            | (ps', delta, true) =>
              if k / P % d + 1 = d then (0 :: ps', delta + s - s * ((k / P % d + 1 : Nat) : Int), true)
              else ((k / P % d + 1) :: ps', delta + s, false)
            | (ps', delta, false) => (k / P % d :: ps', delta, false)) := by
          match ss, hlen' with
          | s' :: ss', _ => rfl
        rw [hcons, IH]
        have hlt : k / P % d < d := Nat.mod_lt _ hd
        by_cases hm : (k + 1) % P = 0
        · have hdiv : (k + 1) / P = k / P + 1 := by
            obtain ⟨q, hq⟩ := Nat.dvd_of_mod_eq_zero hm
            have hq0 : 0 < q := by
              rcases Nat.eq_zero_or_pos q with h | h
              · subst h; simp at hq
              · exact h
            rw [hq, Nat.mul_div_cancel_left _ hP]
            have : k = P * (q - 1) + (P - 1) := by
              have : P * q = P * (q - 1) + P := by
                conv => lhs; rw [show q = (q - 1) + 1 by omega]
                rw [Nat.mul_add, Nat.mul_one]
              omega
            rw [this, Nat.mul_add_div hP, Nat.div_eq_of_lt (by omega)]
            omega
          simp only [hm, decide_true]
          rw [hdiv]
          by_cases h : k / P % d + 1 = d
          · have h1 : (k / P + 1) % d = 0 := by
              rw [Nat.add_mod]
              by_cases hd1 : d = 1
              · subst hd1; omega
              · have : 1 % d = 1 := Nat.mod_eq_of_lt (by omega)
                rw [this, h, Nat.mod_self]
            have h2 : (k + 1) % (d * P) = 0 := by
              rw [Nat.mul_comm, Nat.mod_mul, hm, hdiv, h1]
              simp
            simp only [h, if_true, h1, h2, decide_true, dot]
            simp only [Prod.mk.injEq, true_and, and_true]
            have : ((d : Nat) : Int) = ((k / P % d : Nat) : Int) + 1 := by omega
            rw [this, Int.mul_add, Int.mul_comm s]
            simp
            omega
          · have h1 : (k / P + 1) % d = k / P % d + 1 := by
              rw [Nat.add_mod]
              have hd1 : 1 < d := by omega
              rw [Nat.mod_eq_of_lt hd1]
              exact Nat.mod_eq_of_lt (by omega)
            have h2 : ¬ (k + 1) % (d * P) = 0 := by
              rw [Nat.mul_comm, Nat.mod_mul, hm, hdiv, h1]
              have : P * (k / P % d + 1) ≥ P * 1 := Nat.mul_le_mul_left _ (by omega)
              omega
            simp only [h, if_false, h1, h2, decide_false, dot]
            simp only [Prod.mk.injEq, true_and, and_true]
            have : (((k / P % d + 1 : Nat)) : Int) = ((k / P % d : Nat) : Int) + 1 := by omega
            rw [this, Int.add_mul]
            simp
            omega
        · have hdiv : (k + 1) / P = k / P := by
            have h1 : k % P + 1 < P := by
              rcases Nat.lt_or_ge (k % P + 1) P with h | h
              · exact h
              · exfalso
                apply hm
                have hk : k % P < P := Nat.mod_lt _ hP
                have : k % P + 1 = P := by omega
                rw [Nat.add_mod]
                by_cases hP1 : P = 1
                · subst hP1; omega
                · rw [Nat.mod_eq_of_lt (show 1 < P by omega), this, Nat.mod_self]
            have hk := Nat.div_add_mod k P
            have : k + 1 = P * (k / P) + (k % P + 1) := by omega
            rw [this, Nat.mul_add_div hP, Nat.div_eq_of_lt h1]
            omega
          have h2 : ¬ (k + 1) % (d * P) = 0 := by
            rw [Nat.mul_comm, Nat.mod_mul]
            omega
          simp only [hm, decide_false, hdiv, h2, dot]
          simp only [Prod.mk.injEq, true_and, and_true]
          omega

/-- The contiguity test accepts only the strides of a dense array. -/
theorem contigCheck_true (el : Int) (dims : List Nat) (ss : List Int) (run : Int)
    (hlen : ss.length = dims.length) (h : contigCheck el dims ss = (true, run)) :
    run = el * prodN dims ∧ (∀ k, dot (unravel dims k) ss = el * ((k % prodN dims : Nat) : Int)) ∧
      (dims ≠ [] → ss.getLast? = some el) := by
  induction dims generalizing ss run with
  | nil =>
    match ss, hlen with
    | [], _ =>
      simp only [contigCheck, Prod.mk.injEq, true_and] at h
      subst h
      refine ⟨by simp [prodN], ?_, by simp⟩
      intro k
      simp [unravel, dot, prodN]
  | cons d ds ih =>
    match ss, hlen with
    | s :: ss, hlen =>
      simp only [contigCheck] at h
      have hlen' : ss.length = ds.length := by simpa using hlen
      match hc : contigCheck el ds ss with
      | (false, r) => rw [hc] at h; simp at h
      | (true, r) =>
        rw [hc] at h
        simp only at h
        split at h
        · rename_i hs
          simp only [Prod.mk.injEq, true_and] at h
          obtain ⟨i1, i2, i3⟩ := ih ss r hlen' hc
          subst hs
          refine ⟨?_, ?_, ?_⟩
          · rw [← h, i1]
            simp only [prodN]
            rw [Int.mul_assoc]
            congr 1
            rw [Int.natCast_mul, Int.mul_comm]
          · intro k
            simp only [unravel, dot, prodN, i2, i1]
            rw [Nat.mul_comm d, Nat.mod_mul]
            rw [Int.natCast_add, Int.mul_add, Int.natCast_mul, Int.add_comm]
            congr 1
            rw [Int.mul_comm, Int.mul_assoc]
          · intro _
            cases ds with
            | nil =>
              match ss, hlen' with
              | [], _ => simp only [prodN] at i1; simp [i1]
            | cons d' ds' =>
              match ss, hlen' with
              | s' :: ss', hl =>
                have := i3 (by simp)
                simpa using this
        · simp at h

theorem iterInit_eq (m : Machine) (a : Arr) : iterInit m a = iterAt m a 0 := by
  unfold iterInit iterAt
  simp only [Iter.mk.injEq, true_and]
  refine ⟨?_, ?_⟩
  · rw [unravel_zero]; simp
  · simp [elemAddr, unravel_zero, dot_zero]

theorem iterAdvance_iterAt (m : Machine) (a : Arr) (k : Nat) (ha : ArrOk a) :
    iterAdvance (iterAt m a k) = some (iterAt m a (k + 1)) := by
  have hpos : ∀ d ∈ a.dims, 0 < d := pos_of_prodN (by rw [← ha.size]; exact ha.pos)
  have hss : a.strides ≠ [] := by
    intro h
    have := ha.len
    rw [h] at this
    exact ha.ne (List.length_eq_zero_iff.mp (by simpa using this.symm))
  unfold iterAdvance
  have : (iterAt m a k).arr = a := rfl
  rw [this]
  obtain ⟨s, hs⟩ : ∃ s, a.strides.getLast? = some s := by
    cases h : a.strides.getLast? with
    | none => simp at h; exact absurd h hss
    | some s => exact ⟨s, rfl⟩
  rw [hs]
  simp only
  match hc : contigCheck (itemsize m a.dtype) a.dims a.strides with
  | (true, run) =>
    obtain ⟨_, _, h3⟩ := contigCheck_true _ _ _ _ ha.len hc
    have h3 := h3 ha.ne
    rw [hs] at h3
    have h3 : s = itemsize m a.dtype := by simpa using h3
    simp only [iterAt, hc, if_true]
    simp only [Option.some.injEq, Iter.mk.injEq, true_and]
    rw [h3]
    have : ((k + 1 : Nat) : Int) = (k : Int) + 1 := by omega
    rw [this, Int.add_mul]
    omega
  | (false, run) =>
    simp only [iterAt, hc]
    simp only [Bool.false_eq_true, if_false]
    rw [carry_spec a.dims a.strides k ha.ne ha.len hpos]
    simp only [Option.some.injEq, Iter.mk.injEq, true_and, elemAddr]
    omega

theorem iterAdvanceN_iterAt (m : Machine) (a : Arr) (k n : Nat) (ha : ArrOk a) :
    iterAdvanceN (iterAt m a k) n = some (iterAt m a (k + n)) := by
  induction n generalizing k with
  | zero => rfl
  | succ n ih =>
    simp only [iterAdvanceN]
    rw [iterAdvance_iterAt m a k ha]
    simp only
    rw [ih]
    congr 2
    omega

theorem iterAt_ptr (m : Machine) (a : Arr) (k : Nat) (ha : ArrOk a) (hk : k < a.size) :
    (iterAt m a k).ptr = elemAddr a k := by
  unfold iterAt
  simp only
  match hc : contigCheck (itemsize m a.dtype) a.dims a.strides with
  | (true, run) =>
    obtain ⟨_, h2, _⟩ := contigCheck_true _ _ _ _ ha.len hc
    simp only [if_true, elemAddr]
    rw [h2, Nat.mod_eq_of_lt (by rw [← ha.size]; exact hk), Int.mul_comm]
  | (false, run) => simp

theorem rank_lt (idx dims : List Nat) (h : Valid idx dims) : rank idx dims < prodN dims := by
  induction dims generalizing idx with
  | nil => cases idx <;> simp [rank, prodN]
  | cons d ds ih =>
    match idx, h with
    | i :: is, ⟨h1, h2⟩ =>
      have := ih is h2
      simp only [rank, prodN]
      have h3 : (i + 1) * prodN ds ≤ d * prodN ds := Nat.mul_le_mul_right _ h1
      rw [Nat.add_mul] at h3
      omega

theorem unravel_mod (dims : List Nat) (k c : Nat) : unravel dims (c * prodN dims + k) = unravel dims k := by
  induction dims generalizing c with
  | nil => rfl
  | cons d ds ih =>
    simp only [unravel, prodN]
    have e : c * (d * prodN ds) + k = (c * d) * prodN ds + k := by rw [Nat.mul_assoc]
    rw [e, ih]
    congr 1
    rcases Nat.eq_zero_or_pos (prodN ds) with h | h
    · rw [h]; simp
    · rw [Nat.add_comm, Nat.add_mul_div_right _ _ h, Nat.add_mul_mod_self_right]

/-- Row-major rank and `unravel` are inverse. -/
theorem unravel_rank (idx dims : List Nat) (h : Valid idx dims) : unravel dims (rank idx dims) = idx := by
  induction dims generalizing idx with
  | nil => cases idx with
    | nil => rfl
    | cons => exact absurd h (by simp [Valid])
  | cons d ds ih =>
    match idx, h with
    | i :: is, ⟨h1, h2⟩ =>
      have hl := rank_lt is ds h2
      have hP : 0 < prodN ds := by omega
      simp only [rank, unravel]
      rw [unravel_mod, ih is h2]
      congr 1
      rw [Nat.add_comm, Nat.add_mul_div_right _ _ hP, Nat.div_eq_of_lt hl]
      simp [Nat.mod_eq_of_lt h1]

end Verif
