import Verif.Spec.PyData
import Verif.Proof.Python
import Verif.Props.RecordsAll
import Verif.Props.Record
/-!
# Datasets: lemmas
-/

set_option autoImplicit false

namespace Verif

open Spec

/-! ## Records and their fields -/

theorem recOf_some {T : RField → Content} {q : Nat} : ∀ {l : List RField}, (recOf T q l).isSome = true →
    ∀ f ∈ l, ((T f).rows q).isSome = true := by
  intro l
  induction l with
  | nil => intro _ f hf; cases hf
  | cons g l ih =>
    intro h f hf
    simp only [recOf, Option.bind_eq_bind] at h
    cases hg : (T g).rows q with
    | none => rw [hg] at h; simp at h
    | some a =>
      rw [hg] at h
      cases hr : recOf T q l with
      | none => rw [hr] at h; simp at h
      | some b =>
        rcases List.mem_cons.mp hf with rfl | hf
        · rw [hg]; rfl
        · exact ih (by rw [hr]; rfl) f hf

theorem recOf_congr {T T' : RField → Content} {q : Nat} : ∀ {l : List RField}, (∀ f ∈ l, (T f).rows q = (T' f).rows q) →
    recOf T q l = recOf T' q l := by
  intro l
  induction l with
  | nil => intro _; rfl
  | cons g l ih =>
    intro h
    simp only [recOf]
    rw [h g (by simp), ih fun f hf => h f (by simp [hf])]

/-- The fields of a record in memory are the record. -/
theorem recOf_mem {m : Machine} {rt : RType} (hc : Complete m rt) {T : RField → Content} {q : Nat} {buf : Int} {mem : Mem} {i : Nat}
    (h : ∀ f ∈ rt.fields, (T f).rows q = some (fieldOf m rt buf mem i f)) :
    recOf T q rt.fields = some (peek mem (buf + ((i * rt.itemsize : Nat) : Int)) rt.itemsize) := by
  have key : ∀ (n c : Nat), c + n = rt.fields.length → recOf T q (rt.fields.drop c) =
      some (peek mem (buf + ((i * rt.itemsize : Nat) : Int) + fieldStart m rt.fields c) (recordSize m (rt.fields.drop c))) := by
    intro n
    induction n with
    | zero => intro c hcl; rw [List.drop_eq_nil_of_le (by omega)]; rfl
    | succ n ih =>
      intro c hcl
      have hlt : c < rt.fields.length := by omega
      rw [List.drop_eq_getElem_cons hlt]
      simp only [recOf]
      rw [h _ (List.getElem_mem hlt), ih (c + 1) (by omega)]
      have h1 : recordSize m (rt.fields[c] :: rt.fields.drop (c + 1)) = fieldSize m rt.fields[c] + recordSize m (rt.fields.drop (c + 1)) := by
        unfold recordSize; rw [List.map_cons, List.sum_cons]
      have h2 : fieldStart m rt.fields (c + 1) = fieldStart m rt.fields c + fieldSize m rt.fields[c] := by
        unfold fieldStart
        rw [List.take_add_one, List.getElem?_eq_getElem hlt, List.map_append, List.sum_append]
        rfl
      rw [h1, peek_add, h2]
      simp only [Option.bind_eq_bind, Option.bind_some, Option.some.injEq]
      unfold fieldOf
      rw [hc.offset c hlt]
      congr 2
      omega
  have := key rt.fields.length 0 (by omega)
  rw [List.drop_zero] at this
  rw [this, hc.size]
  simp [fieldStart]

theorem fieldSize_le {m : Machine} {l : List RField} {f : RField} (h : f ∈ l) : fieldSize m f ≤ recordSize m l := by
  induction l with
  | nil => cases h
  | cons g l ih =>
    have e : recordSize m (g :: l) = fieldSize m g + recordSize m l := by unfold recordSize; rw [List.map_cons, List.sum_cons]
    rcases List.mem_cons.mp h with rfl | h
    · omega
    · have := ih h; omega

theorem fieldSize_kind (env : Env) (f : RField) : (fieldKind env f).w * (fieldKind env f).nm = fieldSize env.m f := rfl

theorem recordsAt_length (isz n : Nat) (buf : Int) (mem : Mem) : (recordsAt isz n buf mem).length = n := by simp [recordsAt]

theorem recordsAt_getD (isz n : Nat) (buf : Int) (mem : Mem) {i : Nat} (h : i < n) :
    (recordsAt isz n buf mem).getD i [] = peek mem (buf + ((i * isz : Nat) : Int)) isz := by
  simp [recordsAt, List.getD, h]

/-! ## One process -/

/-- One process writes records. -/
theorem one_writes {env : Env} {bf : CStr} {rt : RType} {T : RField → Content} {w : World} (hc : Complete env.m rt) (hbf : bf ≠ [])
    (hsh : ∀ f ∈ rt.fields, Sharable env bf f) (hap : FieldsApart bf rt.fields) (hnf : w.faults = noFaults) (ht : TreeOk w.fs)
    (h : ∀ f ∈ rt.fields, OnDisk env (fieldKind env f) w.fs (fieldPath bf f) (T f)) {p n : Nat} (buf : Int) (mem : Mem)
    (hn : n * rt.itemsize < 9223372036854775808) (hfit : ∀ f ∈ rt.fields, p + n ≤ (T f).size) :
    ∃ mem' w', writeRecords env bf rt p n buf mem w = .ok (0, mem') w' ∧ w'.faults = noFaults ∧ TreeOk w'.fs ∧
      (∀ f ∈ rt.fields, OnDisk env (fieldKind env f) w'.fs (fieldPath bf f)
        ((T f).put p ((List.range n).map fun i => fieldOf env.m rt buf mem i f))) ∧
      ∀ K base A, (∀ f ∈ rt.fields, Apart base (fieldPath bf f)) → OnDisk env K w.fs base A → OnDisk env K w'.fs base A := by
  have hs := table_step hc hbf hsh hap hnf ht h (.write none p (fun _ => n) (fun _ => buf) (fun _ => mem) 0 0)
    ⟨⟨by decide, by decide, fun _ _ => hn, by simp⟩, fun f hf => by
      show p + rowsBefore (fun _ => n) 1 ≤ _
      rw [one_share]; exact hfit f hf⟩
  obtain ⟨⟨rc, mem'⟩, w', e, d⟩ := ensures_alone_elim hs
  have d : TableDone env bf rt T w (.write none p (fun _ => n) (fun _ => buf) (fun _ => mem) 0 0) (fun _ => rc, fun _ => mem') w' := d
  have hrc : rc = 0 := (d.ans 0 (by decide)).1
  subst hrc
  refine ⟨mem', w', e, d.faults, d.tree, fun f hf => ?_, d.others⟩
  have := d.table f hf
  simpa [tableNext, allOf] using this

/-- One process reads records. -/
theorem one_reads {env : Env} {bf : CStr} {rt : RType} {T : RField → Content} {w : World} (hc : Complete env.m rt) (hbf : bf ≠ [])
    (hsh : ∀ f ∈ rt.fields, Sharable env bf f) (hap : FieldsApart bf rt.fields) (hnf : w.faults = noFaults) (ht : TreeOk w.fs)
    (h : ∀ f ∈ rt.fields, OnDisk env (fieldKind env f) w.fs (fieldPath bf f) (T f)) {p n : Nat} (buf : Int) (mem : Mem)
    (hn : n * rt.itemsize < 9223372036854775808) (hfit : ∀ f ∈ rt.fields, p + n ≤ (T f).size)
    (hrow : ∀ f ∈ rt.fields, ∀ q, p ≤ q → q < p + n → ((T f).rows q).isSome = true) :
    ∃ mem' w', readRecords env bf rt p n buf mem w = .ok (0, mem') w' ∧ w'.faults = noFaults ∧ TreeOk w'.fs ∧
      (∀ f ∈ rt.fields, OnDisk env (fieldKind env f) w'.fs (fieldPath bf f) (T f)) ∧
      (∀ f ∈ rt.fields, ∀ i, i < n → (T f).rows (p + i) = some (fieldOf env.m rt buf mem' i f)) ∧
      ∀ K base A, (∀ f ∈ rt.fields, Apart base (fieldPath bf f)) → OnDisk env K w.fs base A → OnDisk env K w'.fs base A := by
  have hs := table_step hc hbf hsh hap hnf ht h (.read none p (fun _ => n) (fun _ => buf) (fun _ => mem) 0 0)
    ⟨⟨by decide, by decide, fun _ _ => hn, by simp⟩, fun f hf => by
      show p + rowsBefore (fun _ => n) 1 ≤ _ ∧ ∀ q, p ≤ q → q < p + rowsBefore (fun _ => n) 1 → _
      rw [one_share]; exact ⟨hfit f hf, hrow f hf⟩⟩
  obtain ⟨⟨rc, mem'⟩, w', e, d⟩ := ensures_alone_elim hs
  have d : TableDone env bf rt T w (.read none p (fun _ => n) (fun _ => buf) (fun _ => mem) 0 0) (fun _ => rc, fun _ => mem') w' := d
  obtain ⟨hrc, hf, _⟩ := d.ans 0 (by decide)
  have hrc : rc = 0 := hrc
  subst hrc
  refine ⟨mem', w', e, d.faults, d.tree, d.table, fun f hm i hi => ?_, d.others⟩
  have := hf f hm i hi
  simpa [rowsBefore] using this

/-! ## The operations -/

/-- What is known after an operation on a dataset. -/
structure DataDone (env : Env) (d : PyData) (attrs : RField → AttrMap) (R : Records) (w : World) (op : DataOp) (a : DataAns) (d' : PyData)
    (w' : World) : Prop where
  ans : R.answer op a
  same : d'.bf = d.bf ∧ d'.rt = d.rt
  faults : w'.faults = noFaults
  tree : TreeOk w'.fs
  table : IsTable env d' attrs (R.next d.rt.itemsize op) w'.fs
  others : ∀ K base A, (∀ f ∈ d.rt.fields, Apart base (fieldPath d.bf f)) → OnDisk env K w.fs base A → OnDisk env K w'.fs base A

variable {env : Env} {d : PyData} {attrs : RField → AttrMap} {R : Records} {w : World}

theorem sliceExc_one {s : PySlice} (h : sliceExc s = none) : s.step.getD 1 = 1 := by
  unfold sliceExc at h
  split at h
  · cases h
  · split at h
    · cases h
    · omega

theorem indices_exc {s : PySlice} {e : PyExc} (h : sliceExc s = some e) (size : Nat) :
    (s.indices size = .error .valueError ∧ e = .valueError) ∨
    (∃ a b st, s.indices size = .ok (a, b, st) ∧ st ≠ 1 ∧ e = .assertion) := by
  unfold sliceExc at h
  split at h
  next h0 =>
    left
    cases h
    unfold PySlice.indices
    simp [h0]
  next h0 =>
    split at h
    next h1 =>
      right
      cases h
      unfold PySlice.indices
      simp only [if_neg h0]
      split <;> exact ⟨_, _, _, rfl, h1, trivial⟩
    next => cases h

/-- Records written into a table. -/
theorem Spec.IsTable.puts (h : IsTable env d attrs R w.fs) (hnf : w.faults = noFaults) (ht : TreeOk w.fs) {p n : Nat} (buf : Int) (mem : Mem)
    (hn : R.size * d.rt.itemsize < 9223372036854775808) (hfit : p + n ≤ R.size) :
    ∃ mem' w', writeRecords env d.bf d.rt p n buf mem w = .ok (0, mem') w' ∧ w'.faults = noFaults ∧ TreeOk w'.fs ∧
      IsTable env d attrs (R.put p (recordsAt d.rt.itemsize n buf mem)) w'.fs ∧
      ∀ K base A, (∀ f ∈ d.rt.fields, Apart base (fieldPath d.bf f)) → OnDisk env K w.fs base A → OnDisk env K w'.fs base A := by
  obtain ⟨T, hT, hrow⟩ := h.columns
  have hle : n * d.rt.itemsize ≤ R.size * d.rt.itemsize := Nat.mul_le_mul_right _ (by omega)
  obtain ⟨mem', w', e, h1, h2, h3, h4⟩ := one_writes h.complete h.path h.sharable h.apart hnf ht (fun f hf => (hT f hf).1) (p := p) (n := n) buf mem
    (by omega) (fun f hf => by rw [(hT f hf).2.1]; exact hfit)
  refine ⟨mem', w', e, h1, h2, ⟨h.path, h.complete, h.sharable, h.apart, h.size,
    fun f => (T f).put p ((List.range n).map fun i => fieldOf env.m d.rt buf mem i f),
    fun f hf => ⟨h3 f hf, (hT f hf).2.1, (hT f hf).2.2.1, (hT f hf).2.2.2⟩, fun q => ?_⟩, h4⟩
  show (if p ≤ q ∧ q < p + (recordsAt _ n buf mem).length then _ else R.row q) = _
  rw [recordsAt_length]
  split
  next hq =>
    rw [recordsAt_getD _ _ _ _ (by omega), recOf_mem (i := q - p) (buf := buf) (mem := mem) h.complete]
    intro f hf
    simp only [Content.put]
    rw [List.length_map, List.length_range, if_pos hq]
    congr 1
    simp [List.getD, show q - p < n by omega]
  next hq =>
    rw [hrow q]
    apply recOf_congr
    intro f hf
    simp only [Content.put]
    rw [List.length_map, List.length_range, if_neg hq]

/-- Records read from a table. -/
theorem Spec.IsTable.gets (h : IsTable env d attrs R w.fs) (hnf : w.faults = noFaults) (ht : TreeOk w.fs) {p n : Nat} (buf : Int) (mem : Mem)
    (hn : R.size * d.rt.itemsize < 9223372036854775808) (hfit : p + n ≤ R.size)
    (hrow : ∀ q, p ≤ q → q < p + n → (R.row q).isSome = true) :
    ∃ mem' w', readRecords env d.bf d.rt p n buf mem w = .ok (0, mem') w' ∧ w'.faults = noFaults ∧ TreeOk w'.fs ∧
      IsTable env d attrs R w'.fs ∧
      (∀ i, i < n → R.row (p + i) = some (peek mem' (buf + ((i * d.rt.itemsize : Nat) : Int)) d.rt.itemsize)) ∧
      ∀ K base A, (∀ f ∈ d.rt.fields, Apart base (fieldPath d.bf f)) → OnDisk env K w.fs base A → OnDisk env K w'.fs base A := by
  obtain ⟨T, hT, hr⟩ := h.columns
  have hle : n * d.rt.itemsize ≤ R.size * d.rt.itemsize := Nat.mul_le_mul_right _ (by omega)
  obtain ⟨mem', w', e, h1, h2, h3, h4, h5⟩ := one_reads h.complete h.path h.sharable h.apart hnf ht (fun f hf => (hT f hf).1) (p := p) (n := n) buf mem
    (by omega) (fun f hf => by rw [(hT f hf).2.1]; exact hfit)
    (fun f hf q q1 q2 => recOf_some (by rw [← hr q]; exact hrow q q1 q2) f hf)
  refine ⟨mem', w', e, h1, h2, ⟨h.path, h.complete, h.sharable, h.apart, h.size, T, fun f hf => ⟨h3 f hf, (hT f hf).2⟩, hr⟩, fun i hi => ?_, h5⟩
  rw [hr]
  exact recOf_mem h.complete fun f hf => h4 f hf i hi

/-- A table with more rows. -/
theorem Spec.IsTable.grows (h : IsTable env d attrs R w.fs) (hnf : w.faults = noFaults) (ht : TreeOk w.fs) (sizes : List Nat)
    (hs : R.size + sizes.sum < 9223372036854775808) (hb : (R.size + sizes.sum) * d.rt.itemsize < 9223372036854775808)
    (hk : R.files + sizes.length ≤ 16777216) :
    ∃ w', createRecords env d.bf d.rt .aplus sizes w = .ok 0 w' ∧ w'.faults = noFaults ∧ TreeOk w'.fs ∧
      IsTable env { d with size := d.size + sizes.sum } attrs { R with size := R.size + sizes.sum, files := R.files + sizes.length } w'.fs ∧
      ∀ K base A, (∀ f ∈ d.rt.fields, Apart base (fieldPath d.bf f)) → OnDisk env K w.fs base A → OnDisk env K w'.fs base A := by
  obtain ⟨T, hT, hr⟩ := h.columns
  obtain ⟨w', e, h1, h2, h3, h4⟩ := C65_extend env d.bf d.rt sizes T w hnf ht (fun f hf => ⟨(h.sharable f hf).name, (hT f hf).1, by
    obtain ⟨_, k1, k2, _⟩ := hT f hf
    refine ⟨by rw [k1]; exact hs, ?_, by omega⟩
    rw [k1, fieldSize_kind]
    have := Nat.mul_le_mul_left (R.size + sizes.sum) (fieldSize_le (m := env.m) hf)
    rw [← h.complete.size] at this
    omega⟩) h.apart
  refine ⟨w', e, h1, h2, ⟨h.path, h.complete, h.sharable, h.apart, by simp [h.size],
    fun f => { T f with size := (T f).size + sizes.sum, nfile := (T f).nfile + sizes.length }, fun f hf => ?_, fun q => ?_⟩, h4⟩
  · obtain ⟨_, k1, k2, k3⟩ := hT f hf
    exact ⟨h3 f hf, by simp [k1], by simp; omega, k3⟩
  · rw [show ({ R with size := R.size + sizes.sum, files := R.files + sizes.length } : Records).row q = R.row q from rfl, hr q]
    exact recOf_congr fun f hf => rfl

/-- A slice, from where and how many. -/
theorem data_indices (h : IsTable env d attrs R w.fs) {s : PySlice} (hs : s.step.getD 1 = 1) :
    s.indices d.size = .ok (clipTo R.size (npBound R.size 0 s.start), clipTo R.size (npBound R.size R.size s.stop), 1) := by
  rw [h.size]
  exact indices_one s R.size hs

theorem clip_range (n : Nat) (x : Int) : 0 ≤ clipTo n x ∧ clipTo n x ≤ n := by
  unfold clipTo; omega

theorem data_get (h : IsTable env d attrs R w.fs) (hnf : w.faults = noFaults) (ht : TreeOk w.fs) (s : PySlice) (buf : Int) (mem : Mem)
    (hs : s.step.getD 1 = 1) (hfw : forward R s) (hn : R.size * d.rt.itemsize < 9223372036854775808)
    (hrow : ∀ r ∈ npRows R.size s.start s.stop, (R.row r).isSome = true) :
    ∃ mem' w', pyDataGet env d s buf mem w = .ok (.ok (npRows R.size s.start s.stop).length, mem') w' ∧ w'.faults = noFaults ∧ TreeOk w'.fs ∧
      IsTable env d attrs R w'.fs ∧
      (recordsAt d.rt.itemsize (npRows R.size s.start s.stop).length buf mem').map some = (npRows R.size s.start s.stop).map R.row ∧
      ∀ K base A, (∀ f ∈ d.rt.fields, Apart base (fieldPath d.bf f)) → OnDisk env K w.fs base A → OnDisk env K w'.fs base A := by
  have hnp := npRows_eq R.size s.start s.stop hfw
  have hi := data_indices h hs
  unfold forward at hfw
  obtain ⟨a1, a2⟩ := clip_range R.size (npBound R.size 0 s.start)
  obtain ⟨b1, b2⟩ := clip_range R.size (npBound R.size R.size s.stop)
  generalize clipTo R.size (npBound R.size 0 s.start) = a at *
  generalize clipTo R.size (npBound R.size R.size s.stop) = b at *
  obtain ⟨a, rfl⟩ := Int.eq_ofNat_of_zero_le a1
  obtain ⟨b, rfl⟩ := Int.eq_ofNat_of_zero_le b1
  simp only [Int.toNat_natCast, show ((b : Int) - (a : Int)).toNat = b - a by omega] at hnp
  rw [hnp] at hrow
  obtain ⟨mem', w', e, h1, h2, h3, h4, h5⟩ := h.gets hnf ht (p := a) (n := b - a) buf mem hn (by omega) (fun q q1 q2 => hrow q (by
    simp only [List.mem_map, List.mem_range]
    exact ⟨q - a, by omega, by omega⟩))
  refine ⟨mem', w', ?_, h1, h2, h3, ?_, h5⟩
  · unfold pyDataGet
    rw [hi]
    dsimp only
    rw [if_neg (by simp), if_neg (by omega), show ((b : Int) - (a : Int)).toNat = b - a by omega, hnp]
    simp [bind, M.bind, e, pure, M.pure]
  · rw [hnp]
    simp only [List.length_map, List.length_range, recordsAt, List.map_map]
    apply List.map_congr_left
    intro i hi
    exact (h4 i (List.mem_range.mp hi)).symm

theorem scalar_rows (size : Nat) (i : Int) (h : i ≠ -1) :
    npRows size (some i) (some (i + 1)) =
      if npBound size 0 (some i) < 0 ∨ (size : Int) ≤ npBound size 0 (some i) then [] else [(npBound size 0 (some i)).toNat] := by
  have h2 : npBound size size (some (i + 1)) = npBound size 0 (some i) + 1 := by
    unfold npBound; dsimp only; split <;> split <;> omega
  split
  next hc =>
    apply npRows_nil
    rw [h2]
    unfold clipTo
    omega
  next hc =>
    rw [npRows_eq _ _ _ (by rw [h2]; unfold clipTo; omega), h2]
    have e1 : clipTo size (npBound size 0 (some i)) = npBound size 0 (some i) := by unfold clipTo; omega
    have e2 : clipTo size (npBound size 0 (some i) + 1) = npBound size 0 (some i) + 1 := by unfold clipTo; omega
    rw [e1, e2, show (npBound size 0 (some i) + 1 - npBound size 0 (some i)).toNat = 1 by omega]
    rfl

theorem scalar_forward (R : Records) (i : Int) (h : i ≠ -1) : forward R ⟨some i, some (i + 1), none⟩ := by
  unfold forward clipTo npBound
  dsimp only
  split <;> split <;> omega

theorem data_step (h : IsTable env d attrs R w.fs) (hnf : w.faults = noFaults) (ht : TreeOk w.fs) (op : DataOp)
    (hl : R.legal d.rt.itemsize op) :
    ∃ a d' w', runDataOp env d op w = .ok (a, d') w' ∧ DataDone env d attrs R w op a d' w' := by
  cases op with
  | get s buf mem =>
    cases he : sliceExc s with
    | some e =>
      refine ⟨.exc e, d, w, ?_, ?_, ⟨rfl, rfl⟩, hnf, ht, h, fun _ _ _ _ h => h⟩
      · rcases indices_exc he d.size with ⟨h1, rfl⟩ | ⟨a, b, st, h1, h2, rfl⟩
        · simp [runDataOp, pyDataGet, h1, bind, M.bind, pure, M.pure]
        · simp [runDataOp, pyDataGet, h1, h2, bind, M.bind, pure, M.pure]
      · simp [Records.answer, he]
    | none =>
      obtain ⟨hfw, hn, hrow⟩ := hl he
      obtain ⟨mem', w', e, h1, h2, h3, h4, h5⟩ := data_get h hnf ht s buf mem (sliceExc_one he) hfw hn hrow
      refine ⟨.rows (recordsAt d.rt.itemsize (npRows R.size s.start s.stop).length buf mem'), d, w', ?_, ?_, ⟨rfl, rfl⟩, h1, h2, h3, h5⟩
      · simp [runDataOp, e, bind, M.bind, pure, M.pure]
      · simp only [Records.answer, he]
        exact ⟨_, rfl, h4⟩
  | getOne i buf mem =>
    obtain ⟨hi, hn, hrow⟩ := hl
    have hr := scalar_rows R.size i hi
    obtain ⟨mem', w', e, h1, h2, h3, h4, h5⟩ := data_get h hnf ht ⟨some i, some (i + 1), none⟩ buf mem rfl (scalar_forward R i hi) hn (by
      dsimp only
      rw [hr]
      split
      · simp
      · intro r hr
        rw [List.mem_singleton] at hr
        subst hr
        exact hrow _ (by omega) (by omega))
    dsimp only at e h4
    rw [hr] at e h4
    by_cases hc : npBound R.size 0 (some i) < 0 ∨ (R.size : Int) ≤ npBound R.size 0 (some i)
    · rw [if_pos hc] at e h4
      refine ⟨.exc .indexError, d, w', ?_, ?_, ⟨rfl, rfl⟩, h1, h2, h3, h5⟩
      · simp [runDataOp, pyDataGetOne, e, bind, M.bind, pure, M.pure]
      · show if _ then _ else _
        rw [if_pos hc]
    · rw [if_neg hc] at e h4
      refine ⟨.rows (recordsAt d.rt.itemsize 1 buf mem'), d, w', ?_, ?_, ⟨rfl, rfl⟩, h1, h2, h3, h5⟩
      · simp [runDataOp, pyDataGetOne, e, bind, M.bind, pure, M.pure]
      · simp only [Records.answer]
        rw [if_neg hc]
        refine ⟨_, rfl, ?_⟩
        simp only [List.length_singleton, List.map_cons, List.map_nil] at h4
        have := congrArg List.head? h4
        simpa [recordsAt] using this.symm
  | set s n buf mem =>
    cases he : sliceExc s with
    | some e =>
      refine ⟨.exc e, d, w, ?_, ?_, ⟨rfl, rfl⟩, hnf, ht, ?_, fun _ _ _ _ h => h⟩
      · rcases indices_exc he d.size with ⟨h1, rfl⟩ | ⟨a, b, st, h1, h2, rfl⟩
        · simp [runDataOp, pyDataSet, h1, bind, M.bind, pure, M.pure]
        · simp [runDataOp, pyDataSet, h1, h2, bind, M.bind, pure, M.pure]
      · simp [Records.answer, he]
      · simp only [Records.next, he]
        rw [if_neg (by simp)]
        exact h
    | none =>
      obtain ⟨hfw, hn⟩ := hl he
      have hi := data_indices h (sliceExc_one he)
      obtain ⟨a1, a2⟩ := clip_range R.size (npBound R.size 0 s.start)
      obtain ⟨b1, b2⟩ := clip_range R.size (npBound R.size R.size s.stop)
      by_cases hord : clipTo R.size (npBound R.size 0 s.start) ≤ clipTo R.size (npBound R.size R.size s.stop)
      · have hnp := npRows_eq R.size s.start s.stop hord
        generalize clipTo R.size (npBound R.size 0 s.start) = a at *
        generalize clipTo R.size (npBound R.size R.size s.stop) = b at *
        obtain ⟨a, rfl⟩ := Int.eq_ofNat_of_zero_le a1
        obtain ⟨b, rfl⟩ := Int.eq_ofNat_of_zero_le b1
        simp only [Int.toNat_natCast, show ((b : Int) - (a : Int)).toNat = b - a by omega] at hnp
        have hlen : (npRows R.size s.start s.stop).length = b - a := by rw [hnp]; simp
        by_cases hk : n = b - a
        · obtain ⟨mem', w', e, h1, h2, h3, h4⟩ := h.puts hnf ht (p := a) (n := n) buf mem hn (by omega)
          refine ⟨.done, d, w', ?_, ?_, ⟨rfl, rfl⟩, h1, h2, ?_, h4⟩
          · simp only [runDataOp, pyDataSet, hi]
            rw [if_neg (by simp), if_neg (by omega)]
            simp [pyDataWrite, e, bind, M.bind, pure, M.pure]
          · simp only [Records.answer, he, hlen]
            rw [if_pos hk]
          · simp only [Records.next, he, hlen]
            by_cases h0 : n = 0
            · rw [if_neg (by simp [h0])]
              subst h0
              have : R.put a (recordsAt d.rt.itemsize 0 buf mem) = R := by
                unfold Records.put
                rw [recordsAt_length]
                congr 1
                funext q
                rw [if_neg (by omega)]
              rw [this] at h3
              exact h3
            · rw [if_pos ⟨trivial, hk, h0⟩]
              have : (npRows R.size s.start s.stop).headD 0 = a := by
                rw [hnp]
                obtain ⟨k, hk'⟩ : ∃ k, b - a = k + 1 := ⟨b - a - 1, by omega⟩
                rw [hk', List.range_succ_eq_map]
                simp
              rw [this]
              exact h3
        · refine ⟨.exc .assertion, d, w, ?_, ?_, ⟨rfl, rfl⟩, hnf, ht, ?_, fun _ _ _ _ h => h⟩
          · simp only [runDataOp, pyDataSet, hi]
            rw [if_neg (by simp), if_pos (by omega)]
            simp [bind, M.bind, pure, M.pure]
          · simp only [Records.answer, he, hlen]
            rw [if_neg hk]
          · simp only [Records.next, he, hlen]
            rw [if_neg (fun hc => hk hc.2.1)]
            exact h
      · have hn0 : n ≠ 0 := hfw.resolve_left (by unfold forward; exact hord)
        have hnp := npRows_nil R.size s.start s.stop (by omega)
        refine ⟨.exc .assertion, d, w, ?_, ?_, ⟨rfl, rfl⟩, hnf, ht, ?_, fun _ _ _ _ h => h⟩
        · simp only [runDataOp, pyDataSet, hi]
          rw [if_neg (by simp), if_pos (by omega)]
          simp [bind, M.bind, pure, M.pure]
        · simp only [Records.answer, he, hnp, List.length_nil]
          rw [if_neg hn0]
        · simp only [Records.next, he, hnp, List.length_nil]
          rw [if_neg (fun hc => hn0 hc.2.1)]
          exact h
  | append n nfile buf mem =>
    obtain ⟨hb, hs, hk⟩ := hl
    by_cases h0 : nfile = 0 ∧ n ≠ 0
    · refine ⟨.exc .valueError, d, w, ?_, ?_, ⟨rfl, rfl⟩, hnf, ht, ?_, fun _ _ _ _ h => h⟩
      · simp only [runDataOp, pyDataAppend]
        rw [if_pos h0]
        simp [bind, M.bind, pure, M.pure]
      · simp only [Records.answer]; rw [if_pos h0]
      · simp only [Records.next]; rw [if_pos h0]; exact h
    · have hsum := pySizes_sum nfile n (by omega)
      obtain ⟨w1, e1, h1, h2, h3, h4⟩ := h.grows hnf ht (pySizes nfile n) (by rw [hsum]; exact hs) (by rw [hsum]; exact hb)
        (by rw [pySizes_length]; exact hk)
      rw [hsum, pySizes_length] at h3
      obtain ⟨mem', w2, e2, g1, g2, g3, g4⟩ := h3.puts h1 h2 (p := R.size) (n := n) buf mem hb (Nat.le_refl _)
      dsimp only at e2 g4
      refine ⟨.done, { d with size := d.size + n }, w2, ?_, ?_, ⟨rfl, rfl⟩, g1, g2, ?_, fun K base A ha hd => g4 K base A ha (h4 K base A ha hd)⟩
      · simp only [runDataOp, pyDataAppend]
        rw [if_neg h0]
        simp [pyDataWrite, e1, h.size, e2, bind, M.bind, pure, M.pure]
      · simp only [Records.answer]; rw [if_neg h0]
      · simp only [Records.next]; rw [if_neg h0]; exact g3

end Verif
