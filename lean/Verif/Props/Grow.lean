import Verif.Proof.Create
import Verif.Props.Transfer
/-!
# C17: growing a block
-/

set_option autoImplicit false

namespace Verif

open Spec

theorem locate_append (a b : List Nat) : ∀ r, r < a.sum → locate (a ++ b) r = locate a r := by
  induction a with
  | nil => intro r h; simp at h
  | cons s ss ih =>
    intro r h
    simp only [List.cons_append, locate]
    split
    · rfl
    · rw [ih (r - s) (by simp at h; omega)]

/-- What growing does to a handle. -/
structure Grown (bb bb' : Block) (grow : List Nat) : Prop where
  dtype : bb'.dtype = bb.dtype
  nmemb : bb'.nmemb = bb.nmemb
  base : bb'.basename = bb.basename
  attrs : bb'.attrset = bb.attrset
  nfile : bb'.nfile = bb.nfile + grow.length
  fsize : bb'.fsize = bb.fsize ++ grow
  size : bb'.size = bb.size + grow.sum
  cks : bb'.fchecksum = bb.fchecksum ++ List.replicate grow.length 0
  layout : Layout bb'

theorem growInternal_grown {bb : Block} {grow : List Nat} (h : Layout bb)
    (hs : bb.fsize.sum + grow.sum < 9223372036854775808) : Grown bb (growInternal bb grow) grow := by
  have hsum : (bb.fsize ++ grow).sum = bb.fsize.sum + grow.sum := List.sum_append
  have hsize : (runningSums 0 (bb.fsize ++ grow)).getLastD 0 = bb.fsize.sum + grow.sum := by
    rw [runningSums_last _ (by omega), hsum]
  have hlen : (bb.fsize ++ grow).length = grow.length + bb.nfile := by
    rw [List.length_append, h.nfile]; omega
  refine ⟨rfl, rfl, rfl, rfl, Nat.add_comm _ _, rfl, ?_, rfl, ⟨hlen, ?_, ?_, ?_, ?_, ?_⟩⟩
  · show (runningSums 0 (bb.fsize ++ grow)).getLastD 0 = _
    rw [hsize, h.size]
  · show (bb.fchecksum ++ List.replicate grow.length 0).length = grow.length + bb.nfile
    rw [List.length_append, List.length_replicate, h.nck]; omega
  · show runningSums 0 (bb.fsize ++ grow) = (List.range (grow.length + bb.nfile + 1)).map (start (bb.fsize ++ grow))
    rw [runningSums_eq _ 0 (by omega), hlen]
    apply List.map_congr_left
    intro f _
    simp [start]
  · show (runningSums 0 (bb.fsize ++ grow)).getLastD 0 = (bb.fsize ++ grow).sum
    rw [hsize, hsum]
  · show (bb.fsize ++ grow).sum < _
    omega
  · intro c hc
    rcases List.mem_append.mp hc with hc | hc
    · exact h.ck32 c hc
    · have := (List.mem_replicate.mp hc).2; omega

/-- An existing row stays in its file at its offset. -/
theorem Grown.row_place {m : Machine} {bb bb' : Block} {grow : List Nat} (g : Grown bb bb' grow) (h : Layout bb)
    {r : Nat} (hr : r < bb.size) :
    rowFile bb' r = rowFile bb r ∧ rowOff m bb' r = rowOff m bb r ∧ rowSize m bb' = rowSize m bb := by
  unfold rowFile rowOff rowSize
  rw [g.fsize, g.dtype, g.nmemb, locate_append _ _ r (by rw [← h.size]; exact hr)]
  exact ⟨rfl, rfl, rfl⟩

theorem Grown.row_kept {m : Machine} {bb bb' : Block} {grow : List Nat} (g : Grown bb bb' grow) (h : Layout bb)
    {fs : FS} (j : Nat) {r : Nat} (hr : r < bb.size) :
    row m (truncFS bb.basename bb.nfile j fs) bb' r = row m fs bb r := by
  obtain ⟨h1, h2, h3⟩ := g.row_place (m := m) h hr
  have hf : rowFile bb r < bb.nfile := by
    rw [← h.nfile]
    exact (locate_lt bb.fsize r (by rw [← h.size]; exact hr)).1
  have hb : (truncFS bb.basename bb.nfile j fs).bytes (fileKey bb.basename (.data (rowFile bb r))) =
      fs.bytes (fileKey bb.basename (.data (rowFile bb r))) := by
    apply bytes_congr
    apply truncFS_other
    intro f h4 _
    exact fileKey_ne (by simp; omega)
  unfold row
  rw [h1, h2, h3, g.base, hb]

/-- **C17.** Growing under any faults, whether it returns 0 or -1 or is killed: the handle has the new
files at the end, the size has increased by their sum, the checksums of the old files are kept (and those
of the new files are zero), every existing row has its old content, and only the new data files were
touched. -/
theorem C17_grow (env : Env) (bb : Block) (grow : List Nat) (w : World) (h : Layout bb)
    (hs : bb.fsize.sum + grow.sum < 9223372036854775808) :
    wpc (blockGrow bb grow) w
      (fun r w' => (r.1 = 0 ∨ r.1 = -1) ∧ Grown bb r.2 grow ∧
        (∀ i, i < bb.size → row env.m w'.fs r.2 i = row env.m w.fs bb i) ∧
        (∀ k, (∀ f, bb.nfile ≤ f → f < bb.nfile + grow.length → k ≠ fileKey bb.basename (.data f)) →
          w'.fs.node k = w.fs.node k) ∧
        (r.1 = 0 → DataFiles w.fs bb → DataFiles w'.fs r.2) ∧
        (w.faults = noFaults → w.fs.node (resolve bb.basename) = some .dir →
          (∀ f, bb.nfile ≤ f → w.fs.node (fileKey bb.basename (.data f)) ≠ some .dir) → r.1 = 0))
      (fun w' => w.faults ≠ noFaults ∧ (∀ i, i < bb.size → row env.m w'.fs bb i = row env.m w.fs bb i) ∧
        (∀ k, (∀ f, bb.nfile ≤ f → f < bb.nfile + grow.length → k ≠ fileKey bb.basename (.data f)) →
          w'.fs.node k = w.fs.node k)) := by
  have g := growInternal_grown h hs
  have g0 : Grown bb bb [] := ⟨rfl, rfl, rfl, rfl, rfl, by simp, rfl, by simp, h⟩
  unfold blockGrow
  rw [wpc_bind]
  apply wpc_mono (wpc_truncFiles bb.basename grow.length bb.nfile w)
  · rintro b w1 ⟨f1, j, hj, e1, h1, h2⟩
    have hrow : ∀ i, i < bb.size → row env.m w1.fs (growInternal bb grow) i = row env.m w.fs bb i := by
      intro i hi
      rw [e1]
      exact g.row_kept h j hi
    have hother : ∀ k, (∀ f, bb.nfile ≤ f → f < bb.nfile + grow.length → k ≠ fileKey bb.basename (.data f)) →
          w1.fs.node k = w.fs.node k := by
      intro k hk
      rw [e1]
      exact truncFS_other _ _ _ _ _ (fun f h3 h4 => hk f h3 (by omega))
    cases b with
    | true =>
      simp only [if_true]
      rw [wpc_pure]
      refine ⟨Or.inl rfl, g, hrow, hother, fun _ hd => ?_, fun _ _ _ => rfl⟩
      intro f hf
      show IsFile w1.fs (fileKey bb.basename (.data f))
      unfold IsFile
      rw [e1, h1 rfl]
      by_cases hlt : f < bb.nfile
      · rw [truncFS_other _ _ _ _ _ (fun f' h3 _ => fileKey_ne (by simp; omega))]
        exact hd f hlt
      · exact ⟨[], truncFS_data _ _ _ _ f (by omega) (by rw [g.nfile] at hf; exact hf)⟩
    | false =>
      simp only [Bool.false_eq_true, if_false]
      rw [wpc_pure]
      refine ⟨Or.inr rfl, g, hrow, hother, fun h3 => absurd h3 (show (-1 : Int) ≠ 0 by decide), fun h3 h4 h5 => ?_⟩
      exact absurd (h2 h3 h4 (fun f h6 _ => h5 f h6)) (by simp)
  · rintro w1 ⟨f1, j, hj, e1⟩
    refine ⟨f1, fun i hi => by rw [e1]; exact g0.row_kept h j hi, fun k hk => ?_⟩
    rw [e1]
    exact truncFS_other _ _ _ _ _ (fun f h3 h4 => hk f h3 (by omega))

/-- Pointers to existing rows stay valid. -/
theorem C17_pointers (bb bb' : Block) (grow : List Nat) (ptr : Ptr) (t : Nat) (h : Layout bb)
    (g : Grown bb bb' grow) (hp : PointsTo bb ptr t) (ht : t < bb.size) : PointsTo bb' ptr t := by
  have hlt : t < bb.fsize.sum := by rw [← h.size]; exact ht
  have hf : ptr.fileid < bb.nfile := by
    rcases hp.file with hf | ⟨hf, _⟩
    · exact hf
    · have : bb.fsize = [] := List.length_eq_zero_iff.mp (by rw [h.nfile, hf])
      rw [this] at hlt
      simp at hlt
  have hst : ∀ f, f ≤ bb.nfile → start bb'.fsize f = start bb.fsize f := by
    intro f hf
    unfold start
    rw [g.fsize, List.take_append_of_le_length (by rw [h.nfile]; exact hf)]
  refine ⟨Or.inl (by rw [g.nfile]; omega), ?_, hp.nonneg, fun _ => ?_⟩
  · rw [hst _ (by omega)]; exact hp.row
  · rw [hst _ (by omega)]; exact hp.holds hlt

/-- **C17, the new rows.** After a successful grow of a block whose data files exist, writing any rows —
old or new — succeeds, they hold what was written, and all other stored rows are unchanged. (Reading them
back, also through another handle, is `C03_read_back`.) -/
theorem C17_new_rows (env : Env) (bb bb' : Block) (grow : List Nat) (wd w1 : World) (h : Layout bb)
    (hs : bb.fsize.sum + grow.sum < 9223372036854775808) (hd : DataFiles wd.fs bb)
    (hg : blockGrow bb grow wd = .ok (0, bb') w1)
    (ptr : Ptr) (a : Arr) (mem : Mem) (p w sw nm : Nat) (stored : Nat → List Byte)
    (hw : LegalWrite env bb' ptr a mem p w sw nm stored) :
    ∃ x w2, blockWrite env bb' ptr a mem { w1 with faults := noFaults } = .ok x w2 ∧ x.rc = 0 ∧
      (∀ i, i < a.size / nm → row env.m w2.fs bb' (p + i) = rowOfElems stored nm i) ∧
      (∀ r, r < bb.size → r < p ∨ p + a.size / nm ≤ r → Stored env.m wd.fs bb r →
        row env.m w2.fs bb' r = row env.m wd.fs bb r) := by
  obtain ⟨_, g, hrow, _, hdf, _⟩ := wpc_ok (C17_grow env bb grow wd h hs) hg
  have hdf := hdf rfl hd
  obtain ⟨x, w2, k1, k2⟩ := wpc_returns (hw.spec { w1 with faults := noFaults }) (fun _ h => h.2 rfl)
  have hrc := k2.succeeds rfl hdf
  refine ⟨x, w2, k1, hrc, C10_write env bb' ptr a mem p w sw nm stored _ w2 x hw k1 hrc, ?_⟩
  intro r hr hout hst
  have e := hrow r hr
  have := (C04_only_its_rows env bb' ptr a mem p w sw nm stored _ w2 x hw k1).1 r hout (by
    show (row env.m w1.fs bb' r).length = rowSize env.m bb'
    rw [e, (g.row_place (m := env.m) h hr).2.2]
    exact hst)
  rw [this]
  exact e

-- grow the example block by files of 0 and 4 rows, write across the old end
theorem exGrow_layout : Layout (growInternal exBlock [0, 4]) := (growInternal_grown exBlock_layout (by decide)).layout

theorem exGrow_ok : XferOk exEnv (growInternal exBlock [0, 4]) exSrc 4 8 1 :=
  { layout := exGrow_layout, item := by decide, item0 := by decide, memb := rfl, memb0 := by decide,
    felInt := by decide, buf := by decide, bufMax := by decide, offs := by decide,
    arr := ⟨by decide, rfl, by decide, by decide, by decide⟩, asize := by decide, anorm := by decide,
    aitem := by decide, aitem0 := by decide, abytes := by decide }

theorem exGrowWrite : LegalWrite exEnv (growInternal exBlock [0, 4]) ⟨2, 2, 4⟩ exSrc exMem 4 4 8 1 exStored :=
  { ok := exGrow_ok, dis := fun h => absurd h (by decide)
    points := ⟨Or.inl (by decide), by decide, by decide, by decide⟩, range := by decide, conv := exLegalWrite.conv }

example (w1 : World) (hg : blockGrow exBlock [0, 4] exWorld = .ok (0, growInternal exBlock [0, 4]) w1)
    (hd : DataFiles exWorld.fs exBlock) :
    ∃ x w2, blockWrite exEnv (growInternal exBlock [0, 4]) ⟨2, 2, 4⟩ exSrc exMem { w1 with faults := noFaults } =
        .ok x w2 ∧ x.rc = 0 ∧
      (∀ i, i < 3 → row exEnv.m w2.fs (growInternal exBlock [0, 4]) (4 + i) = rowOfElems exStored 1 i) ∧
      (∀ r, r < 5 → r < 4 ∨ 4 + 3 ≤ r → Stored exEnv.m exWorld.fs exBlock r →
        row exEnv.m w2.fs (growInternal exBlock [0, 4]) r = row exEnv.m exWorld.fs exBlock r) :=
  C17_new_rows exEnv exBlock _ [0, 4] exWorld w1 exBlock_layout (by decide) hd hg ⟨2, 2, 4⟩ exSrc exMem 4 4 8 1
    exStored exGrowWrite

example : (match blockGrow exBlock [0, 4] exWorld with
    | .ok r w => (r.1, r.2.size, r.2.foffset, (w.fs.node (fileKey b!"d/x" (.data 4))))
    | _ => (1, 0, [], none)) = (0, 9, [0, 2, 2, 5, 5, 9], some (.file [])) := by decide +kernel

end Verif
