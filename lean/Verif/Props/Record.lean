import Verif.Proof.Record
/-!
# C40: record types, get and set
-/

set_option autoImplicit false

namespace Verif

open Spec

/-- **C40** (layout). Completing a record type whose fields are all set succeeds exactly if the record
has less than 2^31 bytes (beyond, the `int` offset overflows); the fields keep their name, dtype and
number of members and are packed one after another. -/
theorem C40_complete (m : Machine) (rt : RType) (hs : ∀ f ∈ rt.fields, FieldSet m f) :
    (recordSize m rt.fields < 2147483648 → ∃ rt', typeComplete m rt = .ok rt' ∧ Complete m rt' ∧
      rt'.fields.map chosen = rt.fields.map chosen) ∧
    (2147483648 ≤ recordSize m rt.fields → typeComplete m rt = .ub) := by
  have key := completeLoop_ok m rt.fields [] 0 hs (by decide)
  rw [Nat.zero_add] at key
  have e : typeComplete m rt = completeLoop m rt.fields [] ((0 : Nat) : Int) := rfl
  constructor
  · intro h
    rw [if_pos h] at key
    refine ⟨_, e.trans key, ⟨?_, ?_, ?_, ?_, ?_⟩, ?_⟩
    · intro g hg
      obtain ⟨f, hf, o, rfl⟩ := placeAll_mem (by simpa using hg)
      exact ⟨(hs f hf).name, (hs f hf).short, (hs f hf).width, (hs f hf).memb⟩
    · intro g hg
      obtain ⟨f, hf, o, rfl⟩ := placeAll_mem (by simpa using hg)
      rfl
    · intro c hc
      simp only [List.reverse_nil, List.nil_append] at hc ⊢
      rw [placeAll_offset, Nat.zero_add, fieldStart_congr (placeAll_sizes m 0 rt.fields)]
    · simp only [List.reverse_nil, List.nil_append]
      unfold recordSize
      rw [placeAll_sizes]
    · simp only [List.reverse_nil, List.nil_append]
      unfold recordSize at h ⊢
      rw [placeAll_sizes]
      exact h
    · simp only [List.reverse_nil, List.nil_append]
      exact placeAll_chosen m 0 rt.fields
  · intro h
    rw [if_neg (by omega)] at key
    exact e.trans key

/-- A field that was never set makes `complete` abort the process (if the fields before it are fine). -/
theorem C40_unset (m : Machine) (rt : RType) (pre post : List RField) (f : RField)
    (hrt : rt.fields = pre ++ f :: post) (hs : ∀ g ∈ pre, FieldSet m g) (hf : f.name = none)
    (hb : recordSize m pre < 2147483648) : typeComplete m rt = .abort := by
  have key : ∀ (pre done : List RField) (off : Nat), (∀ g ∈ pre, FieldSet m g) →
      off + recordSize m pre < 2147483648 → completeLoop m (pre ++ f :: post) done off = .abort := by
    intro pre
    induction pre with
    | nil => intro done off _ _; simp only [List.nil_append]; rw [completeLoop, hf]
    | cons g pre ih =>
      intro done off hs hb
      have hg := hs g (by simp)
      obtain ⟨nm, hn⟩ := Option.isSome_iff_exists.mp hg.name
      have hsh := hg.short
      have hrs : recordSize m (g :: pre) = fieldSize m g + recordSize m pre := by simp [recordSize]
      rw [List.cons_append, completeLoop, hn]
      simp only
      rw [if_neg (by omega), ← fieldSize_int hg,
        show (off : Int) + (fieldSize m g : Int) = ((off + fieldSize m g : Nat) : Int) by omega,
        fitsInt_nat, fitsInt_nat, if_neg (by simp; omega)]
      exact ih _ _ (fun x hx => hs x (by simp [hx])) (by omega)
  unfold typeComplete
  rw [hrt]
  exact key pre [] 0 hs (by omega)

theorem modify_last {α : Type} (l : List α) (x : α) (g : α → α) : (l ++ [x]).modify l.length g = l ++ [g x] := by
  induction l with
  | nil => rfl
  | cons a l ih => simp only [List.cons_append, List.length_cons, List.modify_succ_cons, ih]

/-- Fields added to a cleared type come out in the order in which they were added, with the name, dtype and
number of members given (names up to 8192, dtypes up to 8 characters). -/
theorem C40_add (rt : RType) (l : List (CStr × CStr × Int)) :
    (addAll (typeClear rt) l).fields.map chosen =
      l.map fun x => (some (x.1.take 8192), x.2.1.take 8, x.2.2) := by
  have key : ∀ (l : List (CStr × CStr × Int)) (rt : RType), (addAll rt l).fields.map chosen =
      rt.fields.map chosen ++ l.map fun x => (some (x.1.take 8192), x.2.1.take 8, x.2.2) := by
    intro l
    induction l with
    | nil => intro rt; simp [addAll]
    | cons x l ih =>
      intro rt
      rw [addAll, ih]
      have : (typeAdd rt x.1 x.2.1 x.2.2).1.fields.map chosen =
          rt.fields.map chosen ++ [(some (x.1.take 8192), x.2.1.take 8, x.2.2)] := by
        unfold typeAdd typeSet
        simp only [Nat.add_sub_cancel_left, List.replicate_one]
        rw [modify_last]
        simp [chosen, strdup]
      rw [this]
      simp
  rw [key]
  rfl

/-- Setting a field that exists changes this field only. -/
theorem C40_set_existing (rt : RType) (i : Nat) (name dtype : CStr) (nmemb : Int) (hi : i < rt.fields.length) :
    (typeSet rt i name dtype nmemb).fields.length = rt.fields.length ∧
    ((typeSet rt i name dtype nmemb).fields[i]?.map chosen = some (some (name.take 8192), dtype.take 8, nmemb)) ∧
    ∀ j, j ≠ i → (typeSet rt i name dtype nmemb).fields[j]? = rt.fields[j]? := by
  have e : (typeSet rt i name dtype nmemb).fields = rt.fields.modify i fun f =>
      { f with name := some (strdup name), dtype := dtype.take 8, nmemb := nmemb } := by
    unfold typeSet
    rw [show i + 1 - rt.fields.length = 0 by omega]
    simp
  rw [e]
  refine ⟨by simp, ?_, ?_⟩
  · rw [List.getElem?_modify]
    simp [List.getElem?_eq_getElem hi, chosen, strdup]
  · intro j hj
    rw [List.getElem?_modify]
    simp [Ne.symm hj]

/-- **C40** (consecutive, disjoint, covering). Every byte of the record belongs to exactly one field, and
no byte of a field is outside the record. -/
theorem C40_partition (m : Machine) (rt : RType) (h : Complete m rt) (x : Nat) :
    (x < rt.itemsize → ∃ c, InField rt c x) ∧
    (∀ c, InField rt c x → x < rt.itemsize) ∧
    (∀ c d, InField rt c x → InField rt d x → c = d) := by
  have conv : ∀ c, InField rt c x ↔ ∃ hc : c < rt.fields.length,
      fieldStart m rt.fields c ≤ x ∧ x < fieldStart m rt.fields c + fieldSize m (rt.fields[c]) := by
    intro c
    constructor
    · rintro ⟨f, h1, h2, h3⟩
      obtain ⟨hc, rfl⟩ := List.getElem?_eq_some_iff.mp h1
      have hm := List.getElem_mem hc
      rw [h.elsize _ hm, ← fieldSize_int (h.set _ hm)] at h3
      rw [h.offset c hc] at h2 h3
      exact ⟨hc, by omega, by omega⟩
    · rintro ⟨hc, h1, h2⟩
      have hm := List.getElem_mem hc
      refine ⟨_, List.getElem?_eq_getElem hc, ?_, ?_⟩
      · rw [h.offset c hc]; omega
      · rw [h.elsize _ hm, ← fieldSize_int (h.set _ hm), h.offset c hc]; omega
  refine ⟨?_, ?_, ?_⟩
  · intro hx
    rw [h.size] at hx
    obtain ⟨c, hc⟩ := fieldStart_cover m rt.fields x hx
    exact ⟨c, (conv c).mpr hc⟩
  · intro c hc
    obtain ⟨hc, _, h2⟩ := (conv c).mp hc
    rw [h.size]
    have := fieldStart_le m rt.fields hc
    omega
  · intro c d hc hd
    obtain ⟨hc, h1, h2⟩ := (conv c).mp hc
    obtain ⟨hd, h3, h4⟩ := (conv d).mp hd
    by_cases hne : c = d
    · exact hne
    · have := fieldStart_disjoint m rt.fields hc hd hne
      omega

theorem fieldBytes_eq {m : Machine} {rt : RType} (h : Complete m rt) {c : Nat} (hc : c < rt.fields.length) :
    fieldBytes (rt.fields[c]) = fieldSize m (rt.fields[c]) := by
  have hm := List.getElem_mem hc
  have h1 := fieldStart_le m rt.fields hc
  have h2 := h.small
  unfold fieldBytes
  rw [h.elsize _ hm, ← fieldSize_int (h.set _ hm), u64_of_nat (by omega)]

theorem fieldAddr_eq {m : Machine} {rt : RType} (h : Complete m rt) {c : Nat} (hc : c < rt.fields.length)
    (buf i : Int) (hi : Addressable rt i) :
    fieldAddr rt buf i (rt.fields[c]) = buf + (i * rt.itemsize + fieldStart m rt.fields c) := by
  have h1 := fieldStart_le m rt.fields hc
  rw [← h.size] at h1
  obtain ⟨h2, h3⟩ := hi
  unfold fieldAddr
  rw [h.offset c hc, i64_of_range (by omega) (by omega)]

/-- Cells (row, field) of records do not overlap. -/
theorem cells_disjoint {m : Machine} {rt : RType} (h : Complete m rt) {c d : Nat} (hc : c < rt.fields.length)
    (hd : d < rt.fields.length) (i j : Int) (hne : (i, c) ≠ (j, d)) :
    i * rt.itemsize + fieldStart m rt.fields c + fieldSize m (rt.fields[c]) ≤
        j * rt.itemsize + fieldStart m rt.fields d ∨
      j * rt.itemsize + fieldStart m rt.fields d + fieldSize m (rt.fields[d]) ≤
        i * rt.itemsize + fieldStart m rt.fields c := by
  have h1 := fieldStart_le m rt.fields hc
  have h2 := fieldStart_le m rt.fields hd
  rw [← h.size] at h1 h2
  have step : ∀ a b : Int, a < b → a * rt.itemsize + rt.itemsize ≤ b * rt.itemsize := by
    intro a b hab
    have := Int.mul_le_mul_of_nonneg_right (show a + 1 ≤ b by omega) (show 0 ≤ (rt.itemsize : Int) by omega)
    rw [Int.add_mul, Int.one_mul] at this
    exact this
  rcases Int.lt_trichotomy i j with hij | hij | hij
  · have := step i j hij; omega
  · subst hij
    have hcd : c ≠ d := fun hcd => hne (by rw [hcd])
    have := fieldStart_disjoint m rt.fields hc hd hcd
    omega
  · have := step j i hij; omega

/-- `memcpy` between ranges that do not overlap. -/
theorem memcpy_some {mem mem' : Mem} {dst src : Int} {n : Nat} (h : memcpy mem dst src n = some mem') :
    mem' = poke mem dst (peek mem src n) ∧ (dst + n ≤ src ∨ src + n ≤ dst) := by
  unfold memcpy at h
  split at h
  · exact absurd h (by simp)
  · injection h with h
    exact ⟨h.symm, by omega⟩

/-- **C40** (set). Storing the value at `data` into field `c` of row `i` makes this cell equal to the value,
and leaves every other cell, and every byte outside this cell, as it was. It is undefined only if there is
no such field, or if the value overlaps the cell. -/
theorem C40_set (m : Machine) (rt : RType) (h : Complete m rt) (buf i data : Int) (c : Nat) (mem : Mem)
    (hc : c < rt.fields.length) (hi : Addressable rt i)
    (hdata : ∀ y, data ≤ y → y < data + fieldSize m (rt.fields[c]) →
      ¬ (buf + i * rt.itemsize + (rt.fields[c]).offset ≤ y ∧
         y < buf + i * rt.itemsize + (rt.fields[c]).offset + fieldSize m (rt.fields[c]))) :
    ∃ mem', recordSet rt buf i c data mem = some mem' ∧
      peek mem' (buf + i * rt.itemsize + (rt.fields[c]).offset) (fieldSize m (rt.fields[c])) =
        peek mem data (fieldSize m (rt.fields[c])) ∧
      (∀ j d, ∀ hd : d < rt.fields.length, (j, d) ≠ (i, c) →
        peek mem' (buf + j * rt.itemsize + (rt.fields[d]).offset) (fieldSize m (rt.fields[d])) =
          peek mem (buf + j * rt.itemsize + (rt.fields[d]).offset) (fieldSize m (rt.fields[d]))) ∧
      ∀ y, ¬ (buf + i * rt.itemsize + (rt.fields[c]).offset ≤ y ∧
         y < buf + i * rt.itemsize + (rt.fields[c]).offset + fieldSize m (rt.fields[c])) → mem' y = mem y := by
  have ha : fieldAddr rt buf i (rt.fields[c]) = buf + i * rt.itemsize + (rt.fields[c]).offset := by
    rw [fieldAddr_eq h hc buf i hi, h.offset c hc]; omega
  have hok : recordSet rt buf i c data mem = some (poke mem (buf + i * rt.itemsize + (rt.fields[c]).offset)
      (peek mem data (fieldSize m (rt.fields[c])))) := by
    unfold recordSet
    rw [List.getElem?_eq_getElem hc]
    simp only [Option.bind_eq_bind, Option.bind_some]
    rw [fieldBytes_eq h hc, ha]
    unfold memcpy
    rw [if_neg]
    rintro ⟨h1, h2⟩
    have ha := hdata data
    have hb := hdata (buf + i * rt.itemsize + (rt.fields[c]).offset)
    omega
  refine ⟨_, hok, ?_, ?_, ?_⟩
  · have := peek_poke_same mem (buf + i * rt.itemsize + (rt.fields[c]).offset)
      (peek mem data (fieldSize m (rt.fields[c])))
    rwa [peek_length] at this
  · intro j d hd hne
    apply peek_poke_disjoint
    rw [peek_length, h.offset c hc, h.offset d hd]
    have := cells_disjoint h hd hc j i hne
    omega
  · intro y hy
    apply poke_outside
    rw [peek_length]
    omega

/-- **C40** (get). Reading field `c` of row `i` copies that cell to `data` and changes nothing else. -/
theorem C40_get (m : Machine) (rt : RType) (h : Complete m rt) (buf i data : Int) (c : Nat) (mem : Mem)
    (hc : c < rt.fields.length) (hi : Addressable rt i)
    (hdata : ∀ y, data ≤ y → y < data + fieldSize m (rt.fields[c]) →
      ¬ (buf + i * rt.itemsize + (rt.fields[c]).offset ≤ y ∧
         y < buf + i * rt.itemsize + (rt.fields[c]).offset + fieldSize m (rt.fields[c]))) :
    ∃ mem', recordGet rt buf i c data mem = some mem' ∧
      peek mem' data (fieldSize m (rt.fields[c])) =
        peek mem (buf + i * rt.itemsize + (rt.fields[c]).offset) (fieldSize m (rt.fields[c])) ∧
      ∀ y, ¬ (data ≤ y ∧ y < data + fieldSize m (rt.fields[c])) → mem' y = mem y := by
  have ha : fieldAddr rt buf i (rt.fields[c]) = buf + i * rt.itemsize + (rt.fields[c]).offset := by
    rw [fieldAddr_eq h hc buf i hi, h.offset c hc]; omega
  have hok : recordGet rt buf i c data mem = some (poke mem data
      (peek mem (buf + i * rt.itemsize + (rt.fields[c]).offset) (fieldSize m (rt.fields[c])))) := by
    unfold recordGet
    rw [List.getElem?_eq_getElem hc]
    simp only [Option.bind_eq_bind, Option.bind_some]
    rw [fieldBytes_eq h hc, ha]
    unfold memcpy
    rw [if_neg]
    rintro ⟨h1, h2⟩
    have ha := hdata data
    have hb := hdata (buf + i * rt.itemsize + (rt.fields[c]).offset)
    omega
  refine ⟨_, hok, ?_, ?_⟩
  · have := peek_poke_same mem data
      (peek mem (buf + i * rt.itemsize + (rt.fields[c]).offset) (fieldSize m (rt.fields[c])))
    rwa [peek_length] at this
  · intro y hy
    apply poke_outside
    rw [peek_length]
    omega

/-- The example: a record of a position (three `f8`), a flag (one `u1`) and an id (one `>i4`), 29 bytes. -/
def exRType : RType := ⟨[⟨some b!"pos", b!"f8", 3, 0, 8⟩, ⟨some b!"flag", b!"u1", 1, 24, 1⟩,
  ⟨some b!"id", b!">i4", 1, 25, 4⟩], 29⟩

example : typeComplete ⟨true, true⟩ (addAll (typeClear ⟨[], 0⟩)
    [(b!"pos", b!"f8", 3), (b!"flag", b!"u1", 1), (b!"id", b!">i4", 1)]) = .ok exRType := by decide +kernel

theorem exRType_complete : Complete ⟨true, true⟩ exRType := by
  refine ⟨?_, ?_, ?_, ?_, ?_⟩
  · intro f hf
    simp only [exRType, List.mem_cons, List.not_mem_nil, or_false] at hf
    rcases hf with rfl | rfl | rfl <;> exact ⟨by decide, by decide, by decide, by decide⟩
  · decide
  · decide
  · decide
  · decide

-- the flag of row 2, from a value at 500: exists, and the id of row 2 is not touched
example (mem : Mem) : ∃ mem', recordSet exRType 1000 2 1 500 mem = some mem' ∧
    peek mem' 1082 1 = peek mem 500 1 ∧ peek mem' 1083 4 = peek mem 1083 4 := by
  obtain ⟨mem', h1, h2, h3, _⟩ := C40_set ⟨true, true⟩ exRType exRType_complete 1000 2 500 1 mem (by decide)
    ⟨by decide, by decide⟩ (by
      intro y h1 h2
      have e1 : fieldSize ⟨true, true⟩ exRType.fields[1] = 1 := by decide
      have e2 : exRType.fields[1].offset = 24 := by decide
      have e3 : exRType.itemsize = 29 := by decide
      rw [e1] at h2 ⊢
      rw [e2, e3]
      omega)
  exact ⟨mem', h1, h2, h3 2 2 (by decide) (by decide)⟩

example (mem : Mem) : ∃ mem', recordGet exRType 1000 2 1 500 mem = some mem' ∧
    peek mem' 500 1 = peek mem 1082 1 := by
  obtain ⟨mem', h1, h2, _⟩ := C40_get ⟨true, true⟩ exRType exRType_complete 1000 2 500 1 mem (by decide)
    ⟨by decide, by decide⟩ (by
      intro y h1 h2
      have e1 : fieldSize ⟨true, true⟩ exRType.fields[1] = 1 := by decide
      have e2 : exRType.fields[1].offset = 24 := by decide
      have e3 : exRType.itemsize = 29 := by decide
      rw [e1] at h2 ⊢
      rw [e2, e3]
      omega)
  exact ⟨mem', h1, h2⟩

end Verif
