import Verif.Proof.PyData
/-!
# C84: Python's `Dataset`
-/

set_option autoImplicit false

namespace Verif

open Spec

/-! ## Histories -/

theorem runDataOps_cons {env : Env} {d d1 d2 : PyData} {op : DataOp} {ops : List DataOp} {a : DataAns} {as : List DataAns} {w w1 w2 : World}
    (h1 : runDataOp env d op w = .ok (a, d1) w1) (h2 : runDataOps env d1 ops w1 = .ok (as, d2) w2) :
    runDataOps env d (op :: ops) w = .ok (a :: as, d2) w2 := by
  simp [runDataOps, bind, M.bind, pure, M.pure, h1, h2]

/-- **C84** (partial: slices that end before they begin are in `C84_reversed`, the scalar index `-1` is in `C84_minus_one`). A dataset
is a table of records. Slices and single records are read, assigned and appended in any order and number of operations. Every
operation returns what NumPy's would on an array of these records, or the exception for steps, for indices outside of the table, for
arrays of the wrong length, and for records appended to no file; the table is in the end what the operations say; attributes of the
columns and all blocks that are not columns of the dataset are kept. -/
theorem C84_history_partial (env : Env) (d : PyData) (attrs : RField → AttrMap) (R : Records) (ops : List DataOp) (w : World)
    (h : IsTable env d attrs R w.fs) (hnf : w.faults = noFaults) (ht : TreeOk w.fs) (hl : R.allLegal d.rt.itemsize ops) :
    ∃ as d' w', runDataOps env d ops w = .ok (as, d') w' ∧ R.allAnswered d.rt.itemsize ops as ∧ d'.bf = d.bf ∧ d'.rt = d.rt ∧
      w'.faults = noFaults ∧ TreeOk w'.fs ∧ IsTable env d' attrs (R.after d.rt.itemsize ops) w'.fs ∧
      ∀ K base A, (∀ f ∈ d.rt.fields, Apart base (fieldPath d.bf f)) → OnDisk env K w.fs base A → OnDisk env K w'.fs base A := by
  induction ops generalizing d R w with
  | nil => exact ⟨[], d, w, rfl, trivial, rfl, rfl, hnf, ht, h, fun _ _ _ _ h => h⟩
  | cons op ops ih =>
    obtain ⟨hl1, hl2⟩ := hl
    obtain ⟨a, d1, w1, e1, s⟩ := data_step h hnf ht op hl1
    obtain ⟨sb, sr⟩ := s.same
    have hl2 : (R.next d.rt.itemsize op).allLegal d1.rt.itemsize ops := by rw [sr]; exact hl2
    obtain ⟨as, d2, w2, e2, g1, g2, g3, g4, g5, g6, g7⟩ := ih d1 _ w1 s.table s.faults s.tree hl2
    rw [sr] at g1 g6 g7 g3
    rw [sb] at g2 g7
    exact ⟨a :: as, d2, w2, runDataOps_cons e1 e2, ⟨s.ans, g1⟩, g2, g3, g4, g5, g6, fun K base A ha hd => g7 K base A ha (s.others K base A ha hd)⟩

/-- A slice that ends before it begins is refused; NumPy gives no records. -/
theorem C84_reversed (env : Env) (d : PyData) (w : World) (s : PySlice) (buf : Int) (mem : Mem) (hs : s.step.getD 1 = 1)
    (hrev : clipTo d.size (npBound d.size d.size s.stop) < clipTo d.size (npBound d.size 0 s.start)) :
    pyDataGet env d s buf mem w = .ok (.error .valueError, mem) w ∧ npRows d.size s.start s.stop = [] := by
  refine ⟨?_, npRows_nil _ _ _ (by omega)⟩
  unfold pyDataGet
  rw [indices_one s d.size hs]
  dsimp only
  rw [if_neg (by simp), if_pos (by omega)]
  rfl

/-- The last record is not had as `dataset[-1]`: this is refused. -/
theorem C84_minus_one (env : Env) (d : PyData) (w : World) (buf : Int) (mem : Mem) (hd : 2 ≤ d.size) :
    pyDataGetOne env d (-1) buf mem w = .ok (.error .valueError, mem) w := by
  have h1 : npBound d.size d.size (some 0) = 0 := rfl
  have h2 : npBound d.size 0 (some (-1)) = -1 + d.size := rfl
  have h := (C84_reversed env d w ⟨some (-1), some 0, none⟩ buf mem rfl (by
    dsimp only; rw [h1, h2]; unfold clipTo; omega)).1
  simp [pyDataGetOne, bind, M.bind, h, pure, M.pure]

/-! ## Opening -/

/-- The number of records is that of the first column; another column must have as many. -/
theorem columns_ok {env : Env} {bf : CStr} {K : CStr → Kind} {A : CStr → Content} {n : Nat} : ∀ (names : List CStr) (size : Option Nat) (w : World),
    w.faults = noFaults → (∀ x ∈ names, OnDisk env (K x) w.fs (pathJoin bf x) (A x) ∧ (A x).size = n) → (size = none ∨ size = some n) →
    ∃ w', pyDataColumns env bf names size w =
        .ok (.ok (if names = [] then size else some n, names.map fun x => (x, npTypeStr env.m (K x).dtype, ((K x).nm : Int)))) w' ∧
      w'.fs = w.fs ∧ w'.faults = noFaults := by
  intro names
  induction names with
  | nil => intro size w hnf _ _; exact ⟨w, rfl, rfl, hnf⟩
  | cons x names ih =>
    intro size w hnf h hs
    obtain ⟨hx, hn⟩ := h x (by simp)
    obtain ⟨b, w1, e1, f1, nf1, hb, hd, hh⟩ := hx.opens hnf
    have hclose := blockClose_clean (env := env) (w := w1) hd (by rw [hh.pending]; exact hx.1)
    obtain ⟨w2, e2, f2, nf2⟩ := ih (some n) w1 nf1 (fun y hy => by rw [f1]; exact h y (by simp [hy])) (Or.inr rfl)
    have hsz : b.size = n := by rw [hh.size, hn]
    have hty : npTypeStr env.m b.dtype = npTypeStr env.m (K x).dtype := by
      unfold npTypeStr
      rw [← hh.kind, normalize_idem]
    refine ⟨w2, ?_, by rw [f2, f1], nf2⟩
    have hne : ¬ (size.isSome = true ∧ size ≠ some b.size) := by
      rcases hs with rfl | rfl <;> simp [hsz]
    rw [ite_self] at e2
    simp only [pyDataColumns, openBlock, bind, M.bind, e1, hclose]
    rw [if_neg hne, hsz]
    simp only [M.bind, e2]
    simp [hty, hh.ok.memb, pure, M.pure]

theorem fields_addAll : ∀ (l : List (CStr × CStr × Int)) (rt : RType), pyDataFields l rt.fields.length rt = addAll rt l := by
  intro l
  induction l with
  | nil => intro rt; rfl
  | cons x l ih =>
    intro rt
    have hlen : (typeSet rt rt.fields.length x.1 x.2.1 x.2.2).fields.length = rt.fields.length + 1 := by
      simp [typeSet]
    show pyDataFields l (rt.fields.length + 1) (typeSet rt rt.fields.length x.1 x.2.1 x.2.2) =
      addAll (typeSet rt rt.fields.length x.1 x.2.1 x.2.2) l
    rw [← hlen]
    exact ih _

/-- What NumPy makes of a type: the same, if single bytes and byte strings are in the byte order of the machine. -/
theorem npType_ok {m : Machine} {dt : CStr} (hn : dtypeNormalize m dt = dt)
    (hnat : charAt dt 1 = 83 ∨ itemsize m dt = 1 → charAt dt 0 = m.endian) :
    dtypeNormalize m (npTypeStr m dt) = dt ∧ (npTypeStr m dt).length < 8 := by
  obtain ⟨c, t, h, hc, ht⟩ := normalize_form m dt
  rw [hn] at h
  unfold npTypeStr
  rw [hn]
  dsimp only
  split
  next hs =>
    have := hnat hs
    rw [h] at this ⊢
    have this : c = m.endian := this
    subst this
    rw [List.drop_one, List.tail_cons, normalize_bar, List.take_of_length_le ht]
    exact ⟨rfl, by simp; omega⟩
  next => exact ⟨hn, by rw [h]; simp; omega⟩

theorem recOf_map {α β : Type} (T : α → Content) (g : β → α) (q : Nat) (l : List β) : recOf T q (l.map g) = recOf (fun b => T (g b)) q l := by
  induction l with
  | nil => rfl
  | cons b l ih => simp only [List.map_cons, recOf, ih]

/-- The kind of a field is chosen by the user. -/
def chosenKind (env : Env) (x : Option CStr × CStr × Int) : Kind :=
  ⟨dtypeNormalize env.m x.2.1, (itemsize env.m x.2.1).toNat, x.2.2.toNat⟩

theorem take_all {α : Type} {l : List α} {n : Nat} (h : l.length ≤ n) : l.take n = l := List.take_of_length_le h

/-- **C84** (opening). Blocks of a file that all have the same number of rows, whatever their types and members, can be opened as a
dataset: the records have the columns in the order given, with the types and members of the blocks, one after the other without gaps;
record `q` is row `q` of each block. No file changes. Blocks of single bytes or of byte strings must be in the byte order of the
machine, and a record must have less than 2^31 bytes. -/
theorem C84_open (env : Env) (bf : CStr) (names : List CStr) (K : CStr → Kind) (A : CStr → Content) (n k : Nat) (w : World)
    (hnf : w.faults = noFaults) (hbf : bf ≠ []) (hne : names ≠ [])
    (h : ∀ x ∈ names, OnDisk env (K x) w.fs (pathJoin bf x) (A x) ∧ (A x).size = n ∧ (A x).nfile ≤ k)
    (hnames : ∀ x ∈ names, (0 : Byte) ∉ bf ++ x ∧ bf.length + x.length + 2 ≤ 8192)
    (hap : names.Pairwise fun x y => Apart (pathJoin bf x) (pathJoin bf y) ∧ Apart (pathJoin bf y) (pathJoin bf x))
    (hnat : ∀ x ∈ names, charAt (K x).dtype 1 = 83 ∨ (K x).w = 1 → charAt (K x).dtype 0 = env.m.endian)
    (hsmall : (names.map fun x => (K x).w * (K x).nm).sum < 2147483648) :
    ∃ d w', pyDataOpen env bf names w = .ok (.ok d) w' ∧ w'.fs = w.fs ∧ w'.faults = noFaults ∧ d.bf = bf ∧
      d.rt.fields.map (fun f => (f.name, fieldKind env f)) = names.map (fun x => (some x, K x)) ∧
      IsTable env d (fun f => (A (f.name.getD [])).attrs) ⟨n, k, fun q => recOf A q names⟩ w'.fs := by
  obtain ⟨w', e, f1, nf1⟩ := columns_ok (K := K) (A := A) (n := n) names none w hnf (fun x hx => ⟨(h x hx).1, (h x hx).2.1⟩) (Or.inl rfl)
  rw [if_neg hne] at e
  have hnd : names.Nodup := hap.imp fun hxy he => hxy.1.1 (by rw [he])
  -- the blocks' types
  have hK : ∀ x ∈ names, dtypeNormalize env.m (K x).dtype = (K x).dtype ∧ itemsize env.m (K x).dtype = (K x).w ∧ 0 < (K x).w ∧ 0 < (K x).nm := by
    intro x hx
    obtain ⟨_, _, b, _, _, hh⟩ := (h x hx).1
    refine ⟨by rw [← hh.kind, normalize_idem], ?_, hh.ok.item0, hh.ok.memb0⟩
    rw [← hh.kind, itemsize_normalize, hh.ok.item]
  have hT : ∀ x ∈ names, dtypeNormalize env.m (npTypeStr env.m (K x).dtype) = (K x).dtype ∧ (npTypeStr env.m (K x).dtype).length < 8 := by
    intro x hx
    obtain ⟨k1, k2, _, _⟩ := hK x hx
    exact npType_ok k1 fun hc => hnat x hx (hc.imp id fun hc => by rw [k2] at hc; omega)
  have hI : ∀ x ∈ names, itemsize env.m (npTypeStr env.m (K x).dtype) = (K x).w := by
    intro x hx
    rw [← itemsize_normalize, (hT x hx).1]
    exact (hK x hx).2.1
  -- the fields
  have hset := fields_addAll (names.map fun x => (x, npTypeStr env.m (K x).dtype, ((K x).nm : Int))) ⟨[], 0⟩
  have hadd := C40_add ⟨[], 0⟩ (names.map fun x => (x, npTypeStr env.m (K x).dtype, ((K x).nm : Int)))
  rw [show typeClear ⟨[], 0⟩ = ⟨[], 0⟩ from rfl, ← hset, List.length_nil] at hadd
  generalize hrt : pyDataFields (names.map fun x => (x, npTypeStr env.m (K x).dtype, ((K x).nm : Int))) 0 ⟨[], 0⟩ = rt0 at hadd
  have hch : rt0.fields.map chosen = names.map fun x => (some x, npTypeStr env.m (K x).dtype, ((K x).nm : Int)) := by
    rw [hadd, List.map_map]
    apply List.map_congr_left
    intro x hx
    simp only [Function.comp_apply]
    rw [take_all (by have := (hnames x hx).2; omega), take_all (by have := (hT x hx).2; omega)]
  have hmem : ∀ (fs : List RField), fs.map chosen = rt0.fields.map chosen → ∀ f ∈ fs,
      ∃ x ∈ names, f.name = some x ∧ f.dtype = npTypeStr env.m (K x).dtype ∧ f.nmemb = (K x).nm := by
    intro fs hfs f hf
    have : chosen f ∈ fs.map chosen := List.mem_map_of_mem hf
    rw [hfs, hch] at this
    obtain ⟨x, hx, he⟩ := List.mem_map.mp this
    simp only [chosen, Prod.mk.injEq] at he
    exact ⟨x, hx, he.1.symm, he.2.1.symm, he.2.2.symm⟩
  have hfs : ∀ f ∈ rt0.fields, FieldSet env.m f := by
    intro f hf
    obtain ⟨x, hx, h1, h2, h3⟩ := hmem _ rfl f hf
    exact ⟨by rw [h1]; rfl, by rw [h2]; exact (hT x hx).2, by rw [h2, hI x hx]; omega, by rw [h3]; omega⟩
  have hrs : recordSize env.m rt0.fields < 2147483648 := by
    have : rt0.fields.map (fieldSize env.m) = names.map fun x => (K x).w * (K x).nm := by
      rw [show fieldSize env.m = (fun c : Option CStr × CStr × Int => (itemsize env.m c.2.1).toNat * c.2.2.toNat) ∘ chosen from rfl,
        ← List.map_map, hch, List.map_map]
      apply List.map_congr_left
      intro x hx
      simp [hI x hx]
    unfold recordSize
    rw [this]
    exact hsmall
  obtain ⟨rt, hcomp, hC, hsame⟩ := (C40_complete env.m rt0 hfs).1 hrs
  have hkinds : rt.fields.map (fun f => (f.name, fieldKind env f)) = names.map (fun x => (some x, K x)) := by
    rw [show (fun f => (f.name, fieldKind env f)) = (fun c : Option CStr × CStr × Int => (c.1, chosenKind env c)) ∘ chosen from rfl,
      ← List.map_map, hsame, hch, List.map_map]
    apply List.map_congr_left
    intro x hx
    simp only [Function.comp_apply, chosenKind, (hT x hx).1, hI x hx, Int.toNat_natCast]
  have hone : ∀ f ∈ rt.fields, ∃ x ∈ names, f.name = some x ∧ fieldKind env f = K x := by
    intro f hf
    have : (f.name, fieldKind env f) ∈ rt.fields.map (fun f => (f.name, fieldKind env f)) := List.mem_map_of_mem hf
    rw [hkinds] at this
    obtain ⟨x, hx, he⟩ := List.mem_map.mp this
    simp only [Prod.mk.injEq] at he
    exact ⟨x, hx, he.1.symm, he.2.symm⟩
  have hnm : rt.fields.map (fun f => f.name.getD []) = names := by
    have := congrArg (List.map fun p : Option CStr × Kind => p.1.getD []) hkinds
    rw [List.map_map, List.map_map] at this
    refine Eq.trans this ?_
    exact List.map_id' names
  refine ⟨⟨bf, rt, n⟩, w', ?_, f1, nf1, rfl, hkinds, hbf, hC, ?_, ?_, rfl, fun f => A (f.name.getD []), ?_, ?_⟩
  · simp [pyDataOpen, bind, M.bind, e, hnd, hrt, hcomp, pure, M.pure]
  · intro f hf
    obtain ⟨x, hx, h1, h2, h3⟩ := hmem _ hsame f hf
    obtain ⟨_, _, k3, k4⟩ := hK x hx
    refine ⟨by rw [h1]; rfl, ?_, ?_, by rw [h2, hI x hx]; omega, by rw [h3]; omega⟩
    · rw [h1]; exact (hnames x hx).1
    · rw [h1]; exact (hnames x hx).2
  · have hap' : (rt.fields.map (fun f => f.name.getD [])).Pairwise
        fun x y => Apart (pathJoin bf x) (pathJoin bf y) ∧ Apart (pathJoin bf y) (pathJoin bf x) := by rw [hnm]; exact hap
    exact List.pairwise_map.mp hap'
  · intro f hf
    obtain ⟨x, hx, h1, h2⟩ := hone f hf
    obtain ⟨g1, g2, g3⟩ := h x hx
    show OnDisk env (fieldKind env f) w'.fs (pathJoin bf (f.name.getD [])) (A (f.name.getD [])) ∧
      (A (f.name.getD [])).size = n ∧ (A (f.name.getD [])).nfile ≤ k ∧
      (A (f.name.getD [])).attrs = (A (f.name.getD [])).attrs
    rw [h1, h2, f1]
    exact ⟨g1, g2, g3, rfl⟩
  · intro q
    show recOf A q names = _
    rw [← recOf_map A (fun f : RField => f.name.getD []) q rt.fields, hnm]

/-- **C84** (columns of different lengths). Blocks that are not all as long as the first one are refused as a dataset, with an error;
no file changes. -/
theorem C84_unequal (env : Env) (bf : CStr) (names : List CStr) (x y : CStr) (rest : List CStr) (K : CStr → Kind) (A : CStr → Content) (n : Nat)
    (w : World) (hnf : w.faults = noFaults)
    (h : ∀ x ∈ names, OnDisk env (K x) w.fs (pathJoin bf x) (A x) ∧ (A x).size = n) (hx : x ∈ names)
    (hy : OnDisk env (K y) w.fs (pathJoin bf y) (A y)) (hdiff : (A y).size ≠ n) :
    ∃ w', pyDataOpen env bf (names ++ y :: rest) w = .ok (.error .error) w' ∧ w'.fs = w.fs ∧ w'.faults = noFaults := by
  have key : ∀ (names : List CStr) (size : Option Nat) (w : World), w.faults = noFaults →
      (∀ x ∈ names, OnDisk env (K x) w.fs (pathJoin bf x) (A x) ∧ (A x).size = n) → ((size = none ∧ names ≠ []) ∨ size = some n) →
      OnDisk env (K y) w.fs (pathJoin bf y) (A y) →
      ∃ w', pyDataColumns env bf (names ++ y :: rest) size w = .ok (.error .error) w' ∧ w'.fs = w.fs ∧ w'.faults = noFaults := by
    intro names
    induction names with
    | nil =>
      intro size w hnf _ hs hy
      have hs : size = some n := by
        rcases hs with ⟨_, hc⟩ | hs
        · exact absurd rfl hc
        · exact hs
      subst hs
      obtain ⟨b, w1, e1, f1, nf1, hb, hd, hh⟩ := hy.opens hnf
      have hclose := blockClose_clean (env := env) (w := w1) hd (by rw [hh.pending]; exact hy.1)
      refine ⟨w1, ?_, f1, nf1⟩
      have : ¬ n = b.size := by rw [hh.size]; omega
      simp [pyDataColumns, openBlock, bind, M.bind, e1, hclose, this, pure, M.pure]
    | cons x names ih =>
      intro size w hnf h hs hy
      obtain ⟨hx, hn⟩ := h x (by simp)
      obtain ⟨b, w1, e1, f1, nf1, hb, hd, hh⟩ := hx.opens hnf
      have hclose := blockClose_clean (env := env) (w := w1) hd (by rw [hh.pending]; exact hx.1)
      obtain ⟨w2, e2, f2, nf2⟩ := ih (some n) w1 nf1 (fun z hz => by rw [f1]; exact h z (by simp [hz])) (Or.inr rfl) (by rw [f1]; exact hy)
      have hsz : b.size = n := by rw [hh.size, hn]
      have hne : ¬ (size.isSome = true ∧ size ≠ some b.size) := by
        rcases hs with ⟨rfl, _⟩ | rfl <;> simp [hsz]
      refine ⟨w2, ?_, by rw [f2, f1], nf2⟩
      simp only [List.cons_append, pyDataColumns, openBlock, bind, M.bind, e1, hclose]
      rw [if_neg hne, hsz]
      simp only [M.bind, e2]
      rfl
  obtain ⟨w', e, f, nf⟩ := key names none w hnf h (Or.inl ⟨rfl, by rintro rfl; cases hx⟩) hy
  exact ⟨w', by simp [pyDataOpen, bind, M.bind, e, pure, M.pure], f, nf⟩

/-! ## Examples -/

/-- The kinds of the blocks of `exR3`. -/
def exKinds (x : CStr) : Kind := if x = b!"p" then ⟨b!"<i2", 2, 3⟩ else ⟨b!">i4", 4, 1⟩

/-- The two blocks `p` and `q` of `exR3` are made, opened as a dataset with `q` first, three records are written over the first ones,
two are read, two are appended and the last one is read. -/
example (mem mem2 mem3 mem4 : Mem) : ∃ w1 d w2 as d' w3,
    createRecords exEnv b!"d" exR3 .wplus [2, 3] exTreeWorld = .ok 0 w1 ∧
    pyDataOpen exEnv b!"d" [b!"q", b!"p"] w1 = .ok (.ok d) w2 ∧
    runDataOps exEnv d [.set ⟨none, some 3, none⟩ 3 1000 mem, .get ⟨some (-4), some (-2), none⟩ 5000 mem2, .append 2 1 3000 mem3,
      .getOne (-2) 5000 mem4, .getOne 7 5000 mem4, .get ⟨none, none, some 2⟩ 0 mem] w2 = .ok (as, d') w3 ∧
    as = [.done, .rows [peek mem 1010 10, peek mem 1020 10], .done, .rows [peek mem3 3000 10], .exc .indexError, .exc .assertion] := by
  obtain ⟨w1, e1, nf1, t1, d1, _⟩ := C65_create exEnv b!"d" exR3 [2, 3] exTreeWorld exFmt (by decide) rfl
    exTree_ok (by decide) (by decide) exR3_makable exR3_apart
  obtain ⟨d, w2, e2, f2, nf2, hb, hk, ht⟩ := C84_open exEnv b!"d" [b!"q", b!"p"] exKinds (fun _ => Content.fresh [2, 3]) 5 2 w1 nf1
    (by decide) (by decide) (by
      intro x hx
      simp only [List.mem_cons, List.not_mem_nil, or_false] at hx
      rcases hx with rfl | rfl
      · exact ⟨d1 ⟨some b!"q", b!">i4", 1, 6, 4⟩ (by decide), rfl, Nat.le_refl _⟩
      · exact ⟨d1 ⟨some b!"p", b!"i2", 3, 0, 2⟩ (by decide), rfl, Nat.le_refl _⟩) (by decide) (by
      have h := exR3_apart
      unfold FieldsApart exR3 at h
      have h2 := (List.pairwise_cons.mp h).1 ⟨some b!"q", b!">i4", 1, 6, 4⟩ (by simp)
      refine .cons ?_ (.cons ?_ .nil)
      · intro y hy
        rw [List.mem_singleton] at hy
        subst hy
        exact ⟨h2.2, h2.1⟩
      · intro y hy; cases hy) (by decide) (by decide)
  have hisz : d.rt.itemsize = 10 := by
    rw [ht.complete.size]
    unfold recordSize
    have := congrArg (List.map fun p : Option CStr × Kind => p.2.w * p.2.nm) hk
    rw [List.map_map, List.map_map] at this
    exact (congrArg List.sum this)
  generalize hR : (⟨5, 2, fun q => recOf (fun _ => Content.fresh [2, 3]) q [b!"q", b!"p"]⟩ : Records) = R at ht
  have hs : R.size = 5 := by rw [← hR]
  have hf : R.files = 2 := by rw [← hR]
  obtain ⟨R1, E1, s1, f1, r1, r2⟩ : ∃ R1, R.next 10 (.set ⟨none, some 3, none⟩ 3 1000 mem) = R1 ∧ R1.size = 5 ∧ R1.files = 2 ∧
      R1.row 1 = some (peek mem 1010 10) ∧ R1.row 2 = some (peek mem 1020 10) := by
    refine ⟨_, rfl, ?_⟩
    simp only [Records.next]
    rw [if_pos ⟨rfl, by rw [hs]; decide, by decide⟩, hs]
    exact ⟨hs, hf, rfl, rfl⟩
  obtain ⟨R2, E2, s2, r5⟩ : ∃ R2, R1.next 10 (.append 2 1 3000 mem3) = R2 ∧ R2.size = 7 ∧ R2.row 5 = some (peek mem3 3000 10) := by
    refine ⟨_, rfl, ?_⟩
    simp only [Records.next]
    rw [if_neg (by decide), s1]
    exact ⟨rfl, rfl⟩
  have n1 : npRows 5 (some (-4)) (some (-2)) = [1, 2] := by decide
  obtain ⟨as, d', w3, e3, ha, _⟩ := C84_history_partial exEnv d _ R [.set ⟨none, some 3, none⟩ 3 1000 mem, .get ⟨some (-4), some (-2), none⟩ 5000 mem2, .append 2 1 3000 mem3,
      .getOne (-2) 5000 mem4, .getOne 7 5000 mem4, .get ⟨none, none, some 2⟩ 0 mem] w2 ht nf2 (by rw [f2]; exact t1) (by
    rw [hisz]
    refine ⟨fun _ => ⟨Or.inl (by unfold forward; rw [hs]; decide), by rw [hs]; decide⟩, ?_⟩
    rw [E1]
    refine ⟨fun _ => ⟨by unfold forward; rw [s1]; decide, by rw [s1]; decide, ?_⟩, ?_⟩
    · rw [s1, n1]
      intro r hr
      simp only [List.mem_cons, List.not_mem_nil, or_false] at hr
      rcases hr with rfl | rfl
      · rw [r1]; rfl
      · rw [r2]; rfl
    show Records.allLegal 10 R1 _
    refine ⟨⟨by rw [s1]; decide, by rw [s1]; decide, by rw [f1]; decide⟩, ?_⟩
    rw [E2]
    refine ⟨⟨by decide, by rw [s2]; decide, fun r hr _ => ?_⟩, ?_⟩
    · rw [s2] at hr
      have hr : (r : Int) = 5 := hr
      obtain rfl : r = 5 := by omega
      rw [r5]; rfl
    show Records.allLegal 10 R2 _
    refine ⟨⟨by decide, by rw [s2]; decide, fun r hr hlt => ?_⟩, fun h => absurd h (by decide), trivial⟩
    rw [s2] at hr hlt
    have hr : (r : Int) = 7 := hr
    omega)
  refine ⟨w1, d, w2, as, d', w3, e1, e2, e3, ?_⟩
  rw [hisz] at ha
  obtain ⟨x1, as, rfl⟩ : ∃ a l, as = a :: l := by cases as <;> simp [Records.allAnswered] at ha ⊢
  obtain ⟨h1, ha⟩ := ha
  obtain ⟨x2, as, rfl⟩ : ∃ a l, as = a :: l := by cases as <;> simp [Records.allAnswered] at ha ⊢
  obtain ⟨h2, ha⟩ := ha
  obtain ⟨x3, as, rfl⟩ : ∃ a l, as = a :: l := by cases as <;> simp [Records.allAnswered] at ha ⊢
  obtain ⟨h3, ha⟩ := ha
  obtain ⟨x4, as, rfl⟩ : ∃ a l, as = a :: l := by cases as <;> simp [Records.allAnswered] at ha ⊢
  obtain ⟨h4, ha⟩ := ha
  obtain ⟨x5, as, rfl⟩ : ∃ a l, as = a :: l := by cases as <;> simp [Records.allAnswered] at ha ⊢
  obtain ⟨h5, ha⟩ := ha
  obtain ⟨x6, as, rfl⟩ : ∃ a l, as = a :: l := by cases as <;> simp [Records.allAnswered] at ha ⊢
  obtain ⟨h6, ha⟩ := ha
  have hnil : as = [] := by cases as <;> simp [Records.allAnswered] at ha ⊢
  subst hnil
  rw [E1] at h2 h3 h4 h5
  change R1.answer _ _ at h3
  change (R1.next 10 (.append 2 1 3000 mem3)).answer _ _ at h4 h5
  rw [E2] at h4 h5
  have k1 : x1 = .done := by
    have h1 : x1 = if 3 = (npRows R.size none (some 3)).length then .done else .exc .assertion := h1
    rw [h1, hs, if_pos (by decide)]
  have k2 : x2 = .rows [peek mem 1010 10, peek mem 1020 10] := by
    obtain ⟨l, rfl, h2⟩ := h2
    rw [s1, n1, List.map_cons, List.map_cons, r1, r2] at h2
    have h2 : l.map some = [peek mem 1010 10, peek mem 1020 10].map some := h2
    rw [List.map_inj_right (by intro a b h; injection h)] at h2
    rw [h2]
  have k3 : x3 = .done := h3
  have k4 : x4 = .rows [peek mem3 3000 10] := by
    simp only [Records.answer] at h4
    rw [s2] at h4
    have hc : ¬ (npBound 7 0 (some (-2)) < 0 ∨ ((7 : Nat) : Int) ≤ npBound 7 0 (some (-2))) := by decide
    rw [if_neg hc] at h4
    obtain ⟨rec, rfl, h4⟩ := h4
    rw [show (npBound 7 0 (some (-2))).toNat = 5 from rfl, r5] at h4
    rw [← Option.some.inj h4]
  have k5 : x5 = .exc .indexError := by
    simp only [Records.answer] at h5
    rw [s2, if_pos (by decide)] at h5
    exact h5
  have k6 : x6 = .exc .assertion := h6
  rw [k1, k2, k3, k4, k5, k6]

/-- Blocks with different numbers of rows. -/
example (w : World) (hnf : w.faults = noFaults) (h : OnDisk exEnv ⟨b!"<i2", 2, 3⟩ w.fs b!"d/p" (Content.fresh [2, 3]))
    (h2 : OnDisk exEnv ⟨b!">i4", 4, 1⟩ w.fs b!"d/q" (Content.fresh [4])) :
    ∃ w', pyDataOpen exEnv b!"d" [b!"p", b!"q"] w = .ok (.error .error) w' ∧ w'.fs = w.fs ∧ w'.faults = noFaults :=
  C84_unequal exEnv b!"d" [b!"p"] b!"p" b!"q" [] exKinds (fun x => if x = b!"p" then Content.fresh [2, 3] else Content.fresh [4]) 5 w hnf
    (by intro x hx; rw [List.mem_singleton] at hx; subst hx; exact ⟨h, rfl⟩) (by simp) h2 (by decide)

/-- No columns, a column twice, and the slice `4:2` and the index `-1` of five records. -/
example (w : World) (mem : Mem) : pyDataOpen exEnv b!"d" [] w = .ok (.error .typeError) w ∧
    pyDataGet exEnv ⟨b!"d", exR3, 5⟩ ⟨some 4, some 2, none⟩ 1000 mem w = .ok (.error .valueError, mem) w ∧
    pyDataGetOne exEnv ⟨b!"d", exR3, 5⟩ (-1) 1000 mem w = .ok (.error .valueError, mem) w :=
  ⟨rfl, (C84_reversed exEnv ⟨b!"d", exR3, 5⟩ w ⟨some 4, some 2, none⟩ 1000 mem rfl (by decide)).1,
    C84_minus_one exEnv ⟨b!"d", exR3, 5⟩ w 1000 mem (by decide)⟩

end Verif
