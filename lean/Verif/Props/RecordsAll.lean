import Verif.Proof.RecordsAll
import Verif.Proof.Python
/-!
# C72: records of several processes
-/

set_option autoImplicit false

namespace Verif

open Spec

/-! ## Columns and files of different fields -/

/-- Changing the column of one field does not change the other fields. -/
def ColumnApart (m : Machine) (rt : RType) (f g : RField) : Prop :=
  ∀ (buf : Int) (k : Nat) (mem mem' : Mem), (∀ y, ¬ InColumn m rt buf k f y → mem' y = mem y) → ∀ i,
    fieldOf m rt buf mem' i g = fieldOf m rt buf mem i g

theorem columns_apart {m : Machine} {rt : RType} (hc : Complete m rt) :
    rt.fields.Pairwise fun f g => ColumnApart m rt f g ∧ ColumnApart m rt g f := by
  rw [List.pairwise_iff_getElem]
  intro c d h1 h2 hlt
  exact ⟨fun buf k mem mem' h i => fieldOf_other hc h1 h2 (by omega) buf k h i,
    fun buf k mem mem' h i => fieldOf_other hc h2 h1 (by omega) buf k h i⟩

theorem Spec.SameOutsideAll.other {env : Env} {K : Kind} {A : Content} {bf base : CStr} {fields : List RField} {fs fs' : FS}
    (h : SameOutsideAll bf fields fs fs') (ha : ∀ f ∈ fields, Apart base (fieldPath bf f)) (hd : OnDisk env K fs base A) :
    OnDisk env K fs' base A := by
  apply hd.congr
  · exact h _ fun f hf id => (ha f hf).notFile id
  · intro id
    exact h _ fun f hf id' he => (ha f hf).ne (C38_files_distinct _ _ _ _ he).1

/-! ## The loop over fields -/

section
variable {env : Env} {bf : CStr} {rt : RType} {n : Nat} {size : Nat → Nat} {buf : Nat → Int} {p : Nat}
  {A : RField → Content}

theorem write_fields {act : RField → (Nat → Mem) → Phases ((Nat → Int) × (Nat → Mem))}
    (hact : ∀ f mem w, w.faults = noFaults → f ∈ rt.fields → Sharable env bf f →
      OnDisk env (fieldKind env f) w.fs (fieldPath bf f) (A f) → p + rowsBefore size n ≤ (A f).size →
      (act f mem).Ensures faultless w
        (FieldDone env bf rt n size buf mem f ((A f).put p (allOf env.m rt n size buf mem f)) w)) :
    ∀ (fields : List RField) (mem : Nat → Mem) (w : World), w.faults = noFaults → (∀ f ∈ fields, f ∈ rt.fields ∧ Sharable env bf f ∧
        OnDisk env (fieldKind env f) w.fs (fieldPath bf f) (A f) ∧ p + rowsBefore size n ≤ (A f).size) →
      FieldsApart bf fields → fields.Pairwise (fun f g => ColumnApart env.m rt f g ∧ ColumnApart env.m rt g f) →
      (mpiEachField n act fields mem).Ensures faultless w fun x w' =>
        (∀ r, r < n → x.1 r = 0) ∧ w'.faults = noFaults ∧
        (∀ f ∈ fields, OnDisk env (fieldKind env f) w'.fs (fieldPath bf f) ((A f).put p (allOf env.m rt n size buf mem f))) ∧
        SameOutsideAll bf fields w.fs w'.fs ∧ (TreeOk w.fs → Later w.fs w'.fs) ∧
        ∀ r, r < n → ∀ y, (∀ f ∈ fields, ¬ InColumn env.m rt (buf r) (size r) f y) → x.2 r y = mem r y := by
  intro fields
  induction fields with
  | nil =>
    intro mem w hnf _ _ _
    exact Phases.ensures_pure ⟨fun _ _ => rfl, hnf, fun f hf => absurd hf List.not_mem_nil, fun _ _ => rfl, fun ht => Later.refl ht,
      fun _ _ _ _ => rfl⟩
  | cons f fs ih =>
    intro mem w hnf hm hap hcol
    obtain ⟨hap1, hap2⟩ := List.pairwise_cons.mp hap
    obtain ⟨hcol1, hcol2⟩ := List.pairwise_cons.mp hcol
    obtain ⟨hm1, hm2, hm3, hm4⟩ := hm f (List.mem_cons_self ..)
    unfold mpiEachField
    apply Phases.ensures_bind
    refine Phases.ensures_mono (hact f mem w hnf hm1 hm2 hm3 hm4) ?_
    rintro ⟨c, mem1⟩ w1 d
    dsimp only
    apply together0_good d.code
    refine Phases.ensures_mono (ih mem1 w1 d.faults (fun g hg => ?_) hap2 hcol2) ?_
    · obtain ⟨h1, h2, h3, h4⟩ := hm g (List.mem_cons_of_mem _ hg)
      exact ⟨h1, h2, h3.outside (hap1 g hg).2 d.out, h4⟩
    · rintro ⟨c2, mem2⟩ w2 ⟨k1, k2, k3, k4, k5, k6⟩
      refine ⟨k1, k2, fun g hg => ?_, fun k hk => ?_, fun ht => (d.tree ht).trans (k5 (d.tree ht).1), fun r hr y hy => ?_⟩
      · rcases List.mem_cons.mp hg with rfl | hg
        · exact k4.other (fun g' hg' => (hap1 g' hg').1) d.disk
        · have e : allOf env.m rt n size buf mem1 g = allOf env.m rt n size buf mem g := by
            unfold allOf
            apply flatMap_congr'
            intro r hr
            apply List.map_congr_left
            intro i _
            exact (hcol1 g hg).1 _ _ _ _ (fun y hy => d.mem r (List.mem_range.mp hr) y hy) i
          rw [← e]
          exact k3 g hg
      · rw [k4 k fun g hg => hk g (List.mem_cons_of_mem _ hg)]
        exact d.out k (hk f (List.mem_cons_self ..))
      · rw [k6 r hr y fun g hg => hy g (List.mem_cons_of_mem _ hg)]
        exact d.mem r hr y (hy f (List.mem_cons_self ..))

theorem read_fields {act : RField → (Nat → Mem) → Phases ((Nat → Int) × (Nat → Mem))}
    (hact : ∀ f mem w, w.faults = noFaults → f ∈ rt.fields → Sharable env bf f →
      OnDisk env (fieldKind env f) w.fs (fieldPath bf f) (A f) → p + rowsBefore size n ≤ (A f).size →
      (∀ q, p ≤ q → q < p + rowsBefore size n → ((A f).rows q).isSome = true) →
      (act f mem).Ensures faultless w fun x w' => FieldDone env bf rt n size buf mem f (A f) w x w' ∧
        ∀ r, r < n → ∀ i, i < size r → (A f).rows (p + rowsBefore size r + i) = some (fieldOf env.m rt (buf r) (x.2 r) i f)) :
    ∀ (fields : List RField) (mem : Nat → Mem) (w : World), w.faults = noFaults → (∀ f ∈ fields, f ∈ rt.fields ∧ Sharable env bf f ∧
        OnDisk env (fieldKind env f) w.fs (fieldPath bf f) (A f) ∧ p + rowsBefore size n ≤ (A f).size ∧
        ∀ q, p ≤ q → q < p + rowsBefore size n → ((A f).rows q).isSome = true) →
      FieldsApart bf fields → fields.Pairwise (fun f g => ColumnApart env.m rt f g ∧ ColumnApart env.m rt g f) →
      (mpiEachField n act fields mem).Ensures faultless w fun x w' =>
        (∀ r, r < n → x.1 r = 0) ∧ w'.faults = noFaults ∧
        (∀ f ∈ fields, OnDisk env (fieldKind env f) w'.fs (fieldPath bf f) (A f)) ∧
        SameOutsideAll bf fields w.fs w'.fs ∧ (TreeOk w.fs → Later w.fs w'.fs) ∧
        (∀ r, r < n → ∀ y, (∀ f ∈ fields, ¬ InColumn env.m rt (buf r) (size r) f y) → x.2 r y = mem r y) ∧
        (∀ g, (∀ f ∈ fields, ColumnApart env.m rt f g) → ∀ r, r < n → ∀ i,
          fieldOf env.m rt (buf r) (x.2 r) i g = fieldOf env.m rt (buf r) (mem r) i g) ∧
        ∀ f ∈ fields, ∀ r, r < n → ∀ i, i < size r →
          (A f).rows (p + rowsBefore size r + i) = some (fieldOf env.m rt (buf r) (x.2 r) i f) := by
  intro fields
  induction fields with
  | nil =>
    intro mem w hnf _ _ _
    exact Phases.ensures_pure ⟨fun _ _ => rfl, hnf, fun f hf => absurd hf List.not_mem_nil, fun _ _ => rfl, fun ht => Later.refl ht,
      fun _ _ _ _ => rfl, fun _ _ _ _ _ => rfl, fun f hf => absurd hf List.not_mem_nil⟩
  | cons f fs ih =>
    intro mem w hnf hm hap hcol
    obtain ⟨hap1, hap2⟩ := List.pairwise_cons.mp hap
    obtain ⟨hcol1, hcol2⟩ := List.pairwise_cons.mp hcol
    obtain ⟨hm1, hm2, hm3, hm4, hm5⟩ := hm f (List.mem_cons_self ..)
    unfold mpiEachField
    apply Phases.ensures_bind
    refine Phases.ensures_mono (hact f mem w hnf hm1 hm2 hm3 hm4 hm5) ?_
    rintro ⟨c, mem1⟩ w1 ⟨d, hrow⟩
    dsimp only
    apply together0_good d.code
    refine Phases.ensures_mono (ih mem1 w1 d.faults (fun g hg => ?_) hap2 hcol2) ?_
    · obtain ⟨h1, h2, h3, h4⟩ := hm g (List.mem_cons_of_mem _ hg)
      exact ⟨h1, h2, h3.outside (hap1 g hg).2 d.out, h4⟩
    · rintro ⟨c2, mem2⟩ w2 ⟨k1, k2, k3, k4, k5, k6, k7, k8⟩
      refine ⟨k1, k2, fun g hg => ?_, fun k hk => ?_, fun ht => (d.tree ht).trans (k5 (d.tree ht).1), fun r hr y hy => ?_,
        fun g hg r hr i => ?_, fun g hg r hr i hi => ?_⟩
      · rcases List.mem_cons.mp hg with rfl | hg
        · exact k4.other (fun g' hg' => (hap1 g' hg').1) d.disk
        · exact k3 g hg
      · rw [k4 k fun g hg => hk g (List.mem_cons_of_mem _ hg)]
        exact d.out k (hk f (List.mem_cons_self ..))
      · rw [k6 r hr y fun g hg => hy g (List.mem_cons_of_mem _ hg)]
        exact d.mem r hr y (hy f (List.mem_cons_self ..))
      · rw [k7 g (fun g' hg' => hg g' (List.mem_cons_of_mem _ hg')) r hr i]
        exact hg f (List.mem_cons_self ..) _ _ _ _ (fun y hy => d.mem r hr y hy) i
      · rcases List.mem_cons.mp hg with rfl | hg
        · rw [k7 g (fun g' hg' => (hcol1 g' hg').2) r hr i]
          exact hrow r hr i hi
        · exact k8 g hg r hr i hi

theorem make_fields {fsize : List Nat} (hfmt : FmtOk env) (hbufM : env.chunkBytes < 18446744073709551616) (hbf : bf ≠ [])
    (hn : 0 < n ∧ n < 2147483648) :
    ∀ (fields : List RField) (mem : Nat → Mem) (w : World), w.faults = noFaults → TreeOk w.fs →
      w.fs.node (resolve bf) = some .dir →
      (∀ f ∈ fields, Makable env bf f ∧ Sharable env bf f ∧ SizesOk env fsize f ∧ Room w.fs (fieldPath bf f)) →
      FieldsApart bf fields →
      (mpiEachField n (fun f mem => do
          let c ← mpiCreateField env n bf .wplus fsize f
          pure (c, mem)) fields mem).Ensures faultless w fun x w' =>
        (∀ r, r < n → x.1 r = 0) ∧ w'.faults = noFaults ∧ Later w.fs w'.fs ∧
        (∀ f ∈ fields, OnDisk env (fieldKind env f) w'.fs (fieldPath bf f) (Content.fresh fsize)) ∧
        (∀ K base A, (∀ f ∈ fields, Apart base (fieldPath bf f)) → OnDisk env K w.fs base A → OnDisk env K w'.fs base A) ∧
        (∀ k, w'.fs.node k ≠ w.fs.node k → ∃ f ∈ fields, (∃ id, k = fileKey (fieldPath bf f) id) ∨ k <+: resolve (fieldPath bf f)) := by
  intro fields
  induction fields with
  | nil =>
    intro mem w hnf ht _ _ _
    exact Phases.ensures_pure ⟨fun _ _ => rfl, hnf, Later.refl ht, fun f hf => absurd hf List.not_mem_nil, fun _ _ _ _ h => h,
      fun k hk => absurd rfl hk⟩
  | cons f fs ih =>
    intro mem w hnf ht hdir hm hap
    obtain ⟨hap1, hap2⟩ := List.pairwise_cons.mp hap
    obtain ⟨hm1, hm2, hm3, hm4⟩ := hm f (List.mem_cons_self ..)
    unfold mpiEachField
    apply Phases.ensures_bind
    apply Phases.ensures_bind
    refine Phases.ensures_mono (make_field hfmt hbufM hnf ht hbf hdir hn hm1 hm2 hm3 hm4) ?_
    intro c w1 d
    apply Phases.ensures_pure
    dsimp only
    apply together0_good d.code
    have hd1 : w1.fs.node (resolve (fieldPath bf f)) = some .dir := by
      obtain ⟨_, _, b, hb, _, hh⟩ := d.disk
      have := hh.dir.dir
      rw [hb] at this
      exact this
    refine Phases.ensures_mono (ih mem w1 d.faults d.later.1 ((d.later.2 _).1 hdir) (fun g hg => ?_) hap2) ?_
    · obtain ⟨h1, h2, h3, h4⟩ := hm g (List.mem_cons_of_mem _ hg)
      exact ⟨h1, h2, h3, h4.changedAt (hap1 g hg).2 (hap1 g hg).1 d.later.1 hd1 d.changed⟩
    · rintro ⟨c2, mem2⟩ w2 ⟨k1, k2, k3, k4, k5, k6⟩
      refine ⟨k1, k2, d.later.trans k3, fun g hg => ?_, fun K base B ha h => ?_, fun k hk => ?_⟩
      · rcases List.mem_cons.mp hg with rfl | hg
        · exact k5 _ _ _ (fun g hg => (hap1 g hg).1) d.disk
        · exact k4 g hg
      · exact k5 _ _ _ (fun g hg => ha g (List.mem_cons_of_mem _ hg)) (h.changedAt (ha f (List.mem_cons_self ..)) d.later d.changed)
      · by_cases he : w1.fs.node k = w.fs.node k
        · obtain ⟨g, hg, h⟩ := k6 k (by rw [he]; exact hk)
          exact ⟨g, List.mem_cons_of_mem _ hg, h⟩
        · exact ⟨f, List.mem_cons_self .., d.changed k he⟩

theorem extend_fields {fsize : List Nat} (hbf : bf ≠ []) (hn : 0 < n ∧ n < 2147483648) :
    ∀ (fields : List RField) (mem : Nat → Mem) (w : World), w.faults = noFaults → TreeOk w.fs →
      (∀ f ∈ fields, Sharable env bf f ∧ OnDisk env (fieldKind env f) w.fs (fieldPath bf f) (A f) ∧
        (A f).legal env (fieldKind env f) (.grow fsize)) →
      FieldsApart bf fields →
      (mpiEachField n (fun f mem => do
          let c ← mpiCreateField env n bf .aplus fsize f
          pure (c, mem)) fields mem).Ensures faultless w fun x w' =>
        (∀ r, r < n → x.1 r = 0) ∧ w'.faults = noFaults ∧ Later w.fs w'.fs ∧
        (∀ f ∈ fields, OnDisk env (fieldKind env f) w'.fs (fieldPath bf f) ((A f).next env (fieldKind env f) (.grow fsize))) ∧
        (∀ K base B, (∀ f ∈ fields, Apart base (fieldPath bf f)) → OnDisk env K w.fs base B → OnDisk env K w'.fs base B) := by
  intro fields
  induction fields with
  | nil =>
    intro mem w hnf ht _ _
    exact Phases.ensures_pure ⟨fun _ _ => rfl, hnf, Later.refl ht, fun f hf => absurd hf List.not_mem_nil, fun _ _ _ _ h => h⟩
  | cons f fs ih =>
    intro mem w hnf ht hm hap
    obtain ⟨hap1, hap2⟩ := List.pairwise_cons.mp hap
    obtain ⟨hm1, hm2, hm3⟩ := hm f (List.mem_cons_self ..)
    unfold mpiEachField
    apply Phases.ensures_bind
    apply Phases.ensures_bind
    refine Phases.ensures_mono (extend_field hnf ht hbf hn hm1 hm2 hm3) ?_
    intro c w1 d
    apply Phases.ensures_pure
    dsimp only
    apply together0_good d.code
    refine Phases.ensures_mono (ih mem w1 d.faults d.later.1 (fun g hg => ?_) hap2) ?_
    · obtain ⟨h1, h2, h3⟩ := hm g (List.mem_cons_of_mem _ hg)
      exact ⟨h1, h2.changedAt (hap1 g hg).2 d.later d.changed, h3⟩
    · rintro ⟨c2, mem2⟩ w2 ⟨k1, k2, k3, k4, k5⟩
      refine ⟨k1, k2, d.later.trans k3, fun g hg => ?_, fun K base B ha h => ?_⟩
      · rcases List.mem_cons.mp hg with rfl | hg
        · exact k5 _ _ _ (fun g hg => (hap1 g hg).1) d.disk
        · exact k4 g hg
      · exact k5 _ _ _ (fun g hg => ha g (List.mem_cons_of_mem _ hg)) (h.changedAt (ha f (List.mem_cons_self ..)) d.later d.changed)

end

/-! ## One process -/

theorem Spec.OnDisk.fieldBlock_holds {env : Env} {bf : CStr} {f : RField} {fs : FS} {A : Content} (hsh : Sharable env bf f)
    (h : OnDisk env (fieldKind env f) fs (fieldPath bf f) A) :
    ∃ b, FieldBlock env fs bf f b ∧ b.basename = fieldPath bf f ∧ Holds env (fieldKind env f) b fs A := by
  obtain ⟨name, hname⟩ := Option.isSome_iff_exists.mp hsh.name
  obtain ⟨h1, h2, b, hb, hd, hh⟩ := h
  refine ⟨b, ⟨⟨name, hname, by rw [hb]; unfold fieldPath; rw [hname]; rfl⟩, hh.kind, ?_, hsh.memb, hsh.item, hh.ok.layout, ?_, hh.ok.bufMax, ?_,
    hh.savable, ⟨hd, hh.pending.trans h1⟩, hh.dir, hh.data, hh.header hd, ?_⟩, hb, hh⟩
  · rw [hh.ok.memb]; show ((f.nmemb.toNat : Nat) : Int) = _; have := hsh.memb; omega
  · exact hh.ok.buf
  · have := hh.ok.offs
    rw [← hh.ok.layout.size] at this
    exact this
  · rw [hh.attrs, ← h2]; exact hh.saved h1

/-- What one process does field by field, as if it were the only one of a communicator. -/
def asOne (act : RField → Mem → M (Int × Mem)) (f : RField) (mem : Nat → Mem) : Phases ((Nat → Int) × (Nat → Mem)) := do
  let x ← Phases.alone (act f (mem 0))
  pure (fun _ => x.1, fun _ => x.2)

theorem ensures_alone_elim {α : Type} {β : Type} {m : M α} {k : α → Phases β} {F : Nat → Nat → Fault} {w : World} {Q : β → World → Prop}
    (h : (Phases.alone m >>= k).Ensures F w Q) : ∃ a w', m w = .ok a w' ∧ (k a).Ensures F w' Q := by
  have h' : ((Phases.root m fun b => (Phases.ret b).bind k) : Phases β).Ensures F w Q := h
  simp only [Phases.Ensures, Phases.bind] at h'
  cases e : m w with
  | ok a w' => rw [e] at h'; exact ⟨a, w', rfl, h'⟩
  | crash w' => rw [e] at h'; exact h'.elim
  | ub => rw [e] at h'; exact h'.elim
  | hang => rw [e] at h'; exact h'.elim

theorem alone_eachField {act : RField → Mem → M (Int × Mem)} {F : Nat → Nat → Fault} {Q : (Nat → Int) × (Nat → Mem) → World → Prop} :
    ∀ (fields : List RField) (mem : Mem) (w : World), (mpiEachField 1 (asOne act) fields fun _ => mem).Ensures F w Q →
      ∃ x w', eachField act fields mem w = .ok x w' ∧ Q (fun _ => x.1, fun _ => x.2) w' := by
  intro fields
  induction fields with
  | nil => intro mem w h; exact ⟨(0, mem), w, rfl, h⟩
  | cons f fs ih =>
    intro mem w h
    have h2 : (Phases.alone (act f mem) >>= fun x =>
      together0 1 (fun _ => x.1) (mpiEachField 1 (asOne act) fs fun _ => x.2) (pure (fun _ => -1, fun _ => x.2))).Ensures F w Q := h
    obtain ⟨x, w1, e1, h3⟩ := ensures_alone_elim h2
    unfold together0 at h3
    by_cases h0 : x.1 = 0
    · rw [if_pos (by simp [h0])] at h3
      obtain ⟨y, w2, e2, hq⟩ := ih _ _ h3
      exact ⟨y, w2, bind_ok_iff.mpr ⟨x, w1, e1, by dsimp only; rw [if_neg (by simp [h0])]; exact e2⟩, hq⟩
    · rw [if_neg (by simp [h0]), if_pos (by simp [h0])] at h3
      exact ⟨(-1, x.2), w1, bind_ok_iff.mpr ⟨x, w1, e1, by dsimp only; rw [if_pos h0]; rfl⟩, h3⟩

section
variable {env : Env} {bf : CStr} {rt : RType} {f : RField} {A : Content} {w : World} {p k : Nat} {buf : Int} {mem : Nat → Mem}

theorem writeField_keeps (env : Env) (bf : CStr) (rt : RType) (o : Int) (k : Nat) (buf : Int) (f : RField) (mem : Mem) :
    KeepsTree (writeField env bf rt o k buf f mem) := by
  unfold writeField
  refine KeepsTree.bind (KeepsTree.lift _) fun a => ?_
  cases f.name with
  | none => exact KeepsTree.ub
  | some name =>
    refine KeepsTree.bind (blockOpen_keeps _ _) fun x => ?_
    have hcl : ∀ b rc m, KeepsTree (closeField env b rc m) := fun b rc m =>
      KeepsTree.bind (blockClose_keeps _ _) fun _ => KeepsTree.pure _
    split
    · refine KeepsTree.bind (KeepsTree.lift _) ?_
      rintro ⟨rc, ptr⟩
      exact KeepsTree.ite (hcl _ _ _) (KeepsTree.bind (blockWrite_keeps _ _ _ _ _ _) fun _ => hcl _ _ _)
    · exact KeepsTree.pure _

/-- One field written by one process. -/
theorem writeField_one (hc : Complete env.m rt) (hf : f ∈ rt.fields) (hsh : Sharable env bf f) (hnf : w.faults = noFaults)
    (hs : k * rt.itemsize < 9223372036854775808) (h : OnDisk env (fieldKind env f) w.fs (fieldPath bf f) A)
    (hp : p + k ≤ A.size) :
    (asOne (writeField env bf rt p k buf) f mem).Ensures faultless w
      (FieldDone env bf rt 1 (fun _ => k) (fun _ => buf) mem f
        (A.put p (allOf env.m rt 1 (fun _ => k) (fun _ => buf) mem f)) w) := by
  obtain ⟨b, hb, hbase, hh⟩ := h.fieldBlock_holds hsh
  have hg := hb.good hc hf
  obtain ⟨⟨rc, mem'⟩, w', e, d⟩ := wpc_returns (wpc_writeField (buf := buf) (mem := mem 0) hc hf hb hnf hs (by rw [hh.size]; exact hp)) (fun _ h => h)
  have hrc := d.rc
  dsimp only at hrc
  subst hrc
  apply Phases.ensures_bind
  apply Phases.ensures_alone e
  have ho : SameOutside (fieldPath bf f) w.fs w'.fs := by
    intro k hk
    rw [← hbase] at hk
    exact d.frame k (hk _) fun i _ => hk _
  have hall : allOf env.m rt 1 (fun _ => k) (fun _ => buf) mem f = (List.range k).map fun i => fieldOf env.m rt buf (mem 0) i f := by
    simp [allOf]
  refine Phases.ensures_pure ⟨fun _ _ => rfl, d.faults, ⟨h.1, h.2.1, ?_⟩, ho, fun ht => wlp_ok (writeField_keeps env bf rt p k buf f (mem 0) w ht) e,
    fun r hr y hy => ?_⟩
  · obtain ⟨b', hb', hs', hv⟩ := d.block
    have hok := hb'.ok hg
    refine ⟨b', by rw [hs'.base]; exact hbase, hb'.clean.1, hok, hb'.dtype, hs'.size.trans hh.size, hs'.nfile.trans hh.nfile, hb'.savable,
      hv.trans hh.attrs, hb'.clean.2.trans h.1.symm, hh.tame, fun _ => ?_, fun _ => hb'.header, hb'.dir, ?_, fun g => ?_, hb'.data, fun q bytes hq => ?_⟩
    · have := hb'.attrs
      rw [hv, hh.attrs] at this
      show AttrsSay env w'.fs b'.basename A.saved
      rw [h.2.1]
      exact this
    · rw [hs'.base, d.frame _ (fileKey_ne (by simp)) fun i _ => fileKey_ne (by simp)]
      exact hh.noOld
    · by_cases hgl : g < b'.nfile
      · obtain ⟨data, hd⟩ := hb'.data g hgl
        rw [hd]; simp
      · rw [hs'.base, d.frame _ (fileKey_ne (by simp)) fun i hi => ?_]
        · exact hh.noDirs g
        · apply fileKey_ne
          intro he
          injection he with he
          have := rowFile_lt hb.layout (show p + i < b.size by rw [hh.size]; omega)
          rw [hs'.nfile] at hgl
          omega
    · have hrows : (A.put p (allOf env.m rt 1 (fun _ => k) (fun _ => buf) mem f)).rows q = some bytes := hq
      unfold Content.put at hrows
      dsimp only at hrows
      rw [hall, List.length_map, List.length_range] at hrows
      rw [hs'.row, hs'.stored]
      by_cases hin : p ≤ q ∧ q < p + k
      · rw [if_pos hin] at hrows
        injection hrows with hrows
        have hi : q - p < k := by omega
        have hr := d.rows (q - p) hi
        rw [show p + (q - p) = q by omega] at hr
        have hby : bytes = fieldOf env.m rt buf (mem 0) (q - p) f := by
          rw [← hrows, List.getD_eq_getElem?_getD, List.getElem?_map, List.getElem?_range hi]
          rfl
        refine ⟨show q < A.size by omega, by rw [hr, hby], ?_⟩
        unfold Stored
        rw [hr]
        unfold fieldOf
        rw [peek_length, hh.rowSize, hg.size, Nat.mul_comm]
        rfl
      · rw [if_neg hin] at hrows
        obtain ⟨r1, r2, r3⟩ := hh.rows q bytes hrows
        have hr := d.others q (by omega) r3
        refine ⟨r1, hr.trans r2, ?_⟩
        unfold Stored
        rw [hr]
        exact r3
  · have hr0 : r = 0 := by omega
    subst hr0
    exact d.mem y hy

/-- One field read by one process. -/
theorem readField_one (hc : Complete env.m rt) (hf : f ∈ rt.fields) (hsh : Sharable env bf f) (hnf : w.faults = noFaults)
    (hs : k * rt.itemsize < 9223372036854775808) (h : OnDisk env (fieldKind env f) w.fs (fieldPath bf f) A)
    (hp : p + k ≤ A.size) (hrows : ∀ q, p ≤ q → q < p + k → (A.rows q).isSome = true) :
    (asOne (readField env bf rt p k buf) f mem).Ensures faultless w fun x w' =>
      FieldDone env bf rt 1 (fun _ => k) (fun _ => buf) mem f A w x w' ∧
      ∀ r, r < 1 → ∀ i, i < k → A.rows (p + rowsBefore (fun _ => k) r + i) = some (fieldOf env.m rt buf (x.2 r) i f) := by
  obtain ⟨b, hb, hbase, hh⟩ := h.fieldBlock_holds hsh
  have hst : ∀ i, i < k → ∃ bytes, A.rows (p + i) = some bytes ∧ row env.m w.fs b (p + i) = bytes ∧ Stored env.m w.fs b (p + i) := by
    intro i hi
    obtain ⟨bytes, hby⟩ := Option.isSome_iff_exists.mp (hrows (p + i) (by omega) (by omega))
    exact ⟨bytes, hby, (hh.rows _ _ hby).2⟩
  obtain ⟨⟨rc, mem'⟩, w', e, d⟩ := wpc_returns (wpc_readField (buf := buf) (mem := mem 0) hc hf hb hnf hs (by rw [hh.size]; exact hp)
    (fun i hi => by obtain ⟨_, _, _, h⟩ := hst i hi; exact h)) (fun _ h => h)
  have hrc := d.rc
  dsimp only at hrc
  subst hrc
  apply Phases.ensures_bind
  apply Phases.ensures_alone e
  refine Phases.ensures_pure ⟨⟨fun _ _ => rfl, d.faults, by rw [d.fs]; exact h, by rw [d.fs]; exact SameOutside.refl _ _,
    fun ht => by rw [d.fs]; exact Later.refl ht, fun r hr y hy => ?_⟩, fun r hr i hi => ?_⟩
  · have hr0 : r = 0 := by omega
    subst hr0
    exact d.mem y hy
  · have hr0 : r = 0 := by omega
    subst hr0
    obtain ⟨bytes, hby, hrow, _⟩ := hst i hi
    have : p + rowsBefore (fun _ => k) 0 + i = p + i := by simp [rowsBefore]
    rw [this, hby, d.column i hi, hrow]

end

/-! ## C72 -/

/-- Outside all records, an address is in no column. -/
theorem not_inColumn {m : Machine} {rt : RType} (hc : Complete m rt) {buf : Int} {k : Nat} {y : Int}
    (hy : y < buf ∨ buf + ((k * rt.itemsize : Nat) : Int) ≤ y) : ∀ f ∈ rt.fields, ¬ InColumn m rt buf k f y := by
  rintro f hf ⟨i, hi, k1, k2⟩
  obtain ⟨c, hcl, rfl⟩ := List.mem_iff_getElem.mp hf
  have hoff := hc.offset c hcl
  have hle := fieldStart_le m rt.fields hcl
  rw [← hc.size] at hle
  have := mul_step hi (Nat.le_refl rt.itemsize)
  omega

/-- **C72** (making the blocks). In an existing directory with room for the fields' blocks, `n` processes make them together with
`big_file_mpi_create_records`: whatever the order in which the processes act, the call returns 0 on all of them, and there is
a block of the dtype, the number of members and the given files for each field. Other blocks keep what they hold. -/
theorem C72_create (env : Env) (bf : CStr) (rt : RType) (n : Nat) (fsize : List Nat) (w : World) (hfmt : FmtOk env)
    (hbufM : env.chunkBytes < 18446744073709551616) (hnf : w.faults = noFaults) (ht : TreeOk w.fs) (hbf : bf ≠ [])
    (hn : 0 < n ∧ n < 2147483648) (hdir : w.fs.node (resolve bf) = some .dir)
    (hm : ∀ f ∈ rt.fields, Makable env bf f ∧ Sharable env bf f ∧ SizesOk env fsize f ∧ Room w.fs (fieldPath bf f))
    (hap : FieldsApart bf rt.fields) :
    (mpiCreateRecords env n bf rt .wplus fsize).Ensures faultless w fun c w' => (∀ r, r < n → c r = 0) ∧
      w'.faults = noFaults ∧ TreeOk w'.fs ∧
      (∀ f ∈ rt.fields, OnDisk env (fieldKind env f) w'.fs (fieldPath bf f) (Content.fresh fsize)) ∧
      (∀ K base A, (∀ f ∈ rt.fields, Apart base (fieldPath bf f)) → OnDisk env K w.fs base A → OnDisk env K w'.fs base A) ∧
      (∀ k, w'.fs.node k ≠ w.fs.node k →
        ∃ f ∈ rt.fields, (∃ id, k = fileKey (fieldPath bf f) id) ∨ k <+: resolve (fieldPath bf f)) := by
  unfold mpiCreateRecords
  apply Phases.ensures_bind
  refine Phases.ensures_mono (make_fields hfmt hbufM hbf hn rt.fields _ w hnf ht hdir hm hap) ?_
  rintro ⟨c, m⟩ w' ⟨h1, h2, h3, h4, h5, h6⟩
  exact Phases.ensures_pure ⟨h1, h2, h3.1, h4, h5, h6⟩

/-- What is known after an operation on the records. -/
structure TableDone (env : Env) (bf : CStr) (rt : RType) (T : RField → Content) (w : World) (op : ROp) (x : (Nat → Int) × (Nat → Mem))
    (w' : World) : Prop where
  ans : tableAnswers env rt T op x
  faults : w'.faults = noFaults
  tree : TreeOk w'.fs
  table : ∀ f ∈ rt.fields, OnDisk env (fieldKind env f) w'.fs (fieldPath bf f) (tableNext env rt T op f)
  others : ∀ K base A, (∀ f ∈ rt.fields, Apart base (fieldPath bf f)) → OnDisk env K w.fs base A → OnDisk env K w'.fs base A

theorem one_share (k : Nat → Nat) : rowsBefore k 1 = k 0 := by simp [rowsBefore]

theorem table_step {env : Env} {bf : CStr} {rt : RType} {T : RField → Content} {w : World} (hc : Complete env.m rt) (hbf : bf ≠ [])
    (hsh : ∀ f ∈ rt.fields, Sharable env bf f) (hap : FieldsApart bf rt.fields) (hnf : w.faults = noFaults) (ht : TreeOk w.fs)
    (h : ∀ f ∈ rt.fields, OnDisk env (fieldKind env f) w.fs (fieldPath bf f) (T f)) (op : ROp) (hl : tableLegal env rt T op) :
    (runROp env bf rt op).Ensures faultless w (TableDone env bf rt T w op) := by
  cases op with
  | write who p size buf mem conc thr =>
    obtain ⟨⟨hn0, hn1, hs, hw⟩, hfit⟩ := hl
    cases who with
    | some n =>
      obtain ⟨hN, hconc⟩ := hw rfl
      refine Phases.ensures_mono (write_fields (A := T) (p := p) (size := size) (buf := buf)
        (fun f mem w hnf hf hsh h hp => write_field (mem := mem) hc hf hsh hbf ⟨hn0, hn1⟩ hnf hs hN hconc h hp)
        rt.fields mem w hnf (fun f hf => ⟨hf, hsh f hf, h f hf, hfit f hf⟩) hap (columns_apart hc)) ?_
      rintro x w' ⟨h1, h2, h3, h4, h5, h6⟩
      exact ⟨fun r hr => ⟨h1 r hr, fun y hy => h6 r hr y (not_inColumn hc hy)⟩, h2, (h5 ht).1, h3, fun K base A ha hd => h4.other ha hd⟩
    | none =>
      have hw := write_fields (A := T) (p := p) (size := fun _ => size 0) (buf := fun _ => buf 0) (n := 1)
        (act := asOne (writeField env bf rt p (size 0) (buf 0)))
        (fun f mem w hnf hf hsh h hp => writeField_one (mem := mem) hc hf hsh hnf (hs 0 hn0) h (by rw [one_share] at hp; exact hp))
        rt.fields (fun _ => mem 0) w hnf (fun f hf => ⟨hf, hsh f hf, h f hf, by have := hfit f hf; exact this⟩) hap (columns_apart hc)
      obtain ⟨x, w', e, h1, h2, h3, h4, h5, h6⟩ := alone_eachField rt.fields (mem 0) w hw
      apply Phases.ensures_bind
      apply Phases.ensures_alone (a := x) (w' := w') e
      refine Phases.ensures_pure ⟨fun r hr => ?_, h2, (h5 ht).1, h3, fun K base A ha hd => h4.other ha hd⟩
      have hr0 : r = 0 := by change r < 1 at hr; omega
      subst hr0
      exact ⟨h1 0 (by omega), fun y hy => h6 0 (by omega) y (not_inColumn hc hy)⟩
  | read who p size buf mem conc thr =>
    obtain ⟨⟨hn0, hn1, hs, hw⟩, hfit⟩ := hl
    cases who with
    | some n =>
      obtain ⟨hN, hconc⟩ := hw rfl
      refine Phases.ensures_mono (read_fields (A := T) (p := p) (size := size) (buf := buf)
        (fun f mem w hnf hf hsh h hp hrow => read_field (mem := mem) hc hf hsh hbf ⟨hn0, hn1⟩ hnf hs hN hconc h hp hrow)
        rt.fields mem w hnf (fun f hf => ⟨hf, hsh f hf, h f hf, hfit f hf⟩) hap (columns_apart hc)) ?_
      rintro x w' ⟨h1, h2, h3, h4, h5, h6, _, h8⟩
      exact ⟨fun r hr => ⟨h1 r hr, fun f hf i hi => h8 f hf r hr i hi, fun y hy => h6 r hr y (not_inColumn hc hy)⟩, h2, (h5 ht).1, h3,
        fun K base A ha hd => h4.other ha hd⟩
    | none =>
      have hw := read_fields (A := T) (p := p) (size := fun _ => size 0) (buf := fun _ => buf 0) (n := 1)
        (act := asOne (readField env bf rt p (size 0) (buf 0)))
        (fun f mem w hnf hf hsh h hp hrow => readField_one (mem := mem) hc hf hsh hnf (hs 0 hn0) h (by rw [one_share] at hp; exact hp)
          (by rw [one_share] at hrow; exact hrow))
        rt.fields (fun _ => mem 0) w hnf (fun f hf => ⟨hf, hsh f hf, h f hf, hfit f hf⟩) hap (columns_apart hc)
      obtain ⟨x, w', e, h1, h2, h3, h4, h5, h6, _, h8⟩ := alone_eachField rt.fields (mem 0) w hw
      apply Phases.ensures_bind
      apply Phases.ensures_alone (a := x) (w' := w') e
      refine Phases.ensures_pure ⟨fun r hr => ?_, h2, (h5 ht).1, h3, fun K base A ha hd => h4.other ha hd⟩
      have hr0 : r = 0 := by change r < 1 at hr; omega
      subst hr0
      exact ⟨h1 0 (by omega), fun f hf i hi => h8 f hf 0 (by omega) i hi, fun y hy => h6 0 (by omega) y (not_inColumn hc hy)⟩
  | extend who fsize =>
    obtain ⟨hn0, hn1, hfit⟩ := hl
    cases who with
    | some n =>
      apply Phases.ensures_bind
      unfold mpiCreateRecords
      apply Phases.ensures_bind
      refine Phases.ensures_mono (extend_fields (A := T) hbf ⟨hn0, hn1⟩ rt.fields _ w hnf ht
        (fun f hf => ⟨hsh f hf, h f hf, hfit f hf⟩) hap) ?_
      rintro ⟨c, m⟩ w' ⟨h1, h2, h3, h4, h5⟩
      exact Phases.ensures_pure ⟨h1, h2, h3.1, h4, h5⟩
    | none =>
      obtain ⟨w', e, h2, h3, h4, h5⟩ := C65_extend env bf rt fsize T w hnf ht (fun f hf => ⟨(hsh f hf).name, h f hf, hfit f hf⟩) hap
      apply Phases.ensures_bind
      apply Phases.ensures_alone e
      exact Phases.ensures_pure ⟨fun _ _ => rfl, h2, h3, h4, h5⟩

/-- **C72** (histories). The fields of a record type have their blocks in a file, apart from each other. Records are written, read
and added in any order and number of operations, each by one process or by any number of processes together, with whatever share
each of them has. Whatever the order in which the processes act, every operation returns, with 0 on every process; reading gives
each process its share of the records as last written; memory outside the records is not changed; the blocks hold in the end what
the operations say, and other blocks keep what they hold. -/
theorem C72_history (env : Env) (bf : CStr) (rt : RType) (T : RField → Content) (ops : List ROp) (w : World)
    (hc : Complete env.m rt) (hbf : bf ≠ []) (hsh : ∀ f ∈ rt.fields, Sharable env bf f) (hap : FieldsApart bf rt.fields)
    (hnf : w.faults = noFaults) (ht : TreeOk w.fs)
    (h : ∀ f ∈ rt.fields, OnDisk env (fieldKind env f) w.fs (fieldPath bf f) (T f)) (hl : tableAllLegal env rt T ops) :
    (runROps env bf rt ops).Ensures faultless w fun xs w' =>
      tableAllAnswered env rt T ops xs ∧ w'.faults = noFaults ∧ TreeOk w'.fs ∧
      (∀ f ∈ rt.fields, OnDisk env (fieldKind env f) w'.fs (fieldPath bf f) (tableAfter env rt T ops f)) ∧
      (∀ K base A, (∀ f ∈ rt.fields, Apart base (fieldPath bf f)) → OnDisk env K w.fs base A → OnDisk env K w'.fs base A) := by
  induction ops generalizing T w with
  | nil => exact Phases.ensures_pure ⟨trivial, hnf, ht, h, fun _ _ _ _ h => h⟩
  | cons op ops ih =>
    obtain ⟨hl1, hl2⟩ := hl
    unfold runROps
    apply Phases.ensures_bind
    refine Phases.ensures_mono (table_step hc hbf hsh hap hnf ht h op hl1) fun x w1 d => ?_
    apply Phases.ensures_bind
    refine Phases.ensures_mono (ih _ w1 d.faults d.tree d.table hl2) ?_
    rintro xs w2 ⟨h1, h2, h3, h4, h5⟩
    exact Phases.ensures_pure ⟨⟨d.ans, h1⟩, h2, h3, h4, fun K base A ha hd => h5 K base A ha (d.others K base A ha hd)⟩

/-! ## Bytes of records -/

/-- Two records with the same fields have the same bytes. -/
theorem record_ext {m : Machine} {rt : RType} (hc : Complete m rt) {buf buf' : Int} {mem mem' : Mem} {i i' : Nat}
    (h : ∀ f ∈ rt.fields, fieldOf m rt buf mem i f = fieldOf m rt buf' mem' i' f) :
    peek mem (buf + ((i * rt.itemsize : Nat) : Int)) rt.itemsize = peek mem' (buf' + ((i' * rt.itemsize : Nat) : Int)) rt.itemsize := by
  apply peek_ext
  intro x hx
  rw [hc.size] at hx
  obtain ⟨c, hcl, k1, k2⟩ := fieldStart_cover m rt.fields _ hx
  have e1 := h _ (List.getElem_mem hcl)
  unfold fieldOf at e1
  have hoff := hc.offset c hcl
  have hlen : x - fieldStart m rt.fields c < fieldSize m (rt.fields[c]) := by omega
  have e2 := congrArg (fun l => l[x - fieldStart m rt.fields c]?) e1
  rw [List.getElem?_eq_getElem (by rw [peek_length]; exact hlen),
    List.getElem?_eq_getElem (by rw [peek_length]; exact hlen), peek_getElem, peek_getElem] at e2
  injection e2 with e2
  generalize i * rt.itemsize = q at *
  generalize i' * rt.itemsize = q' at *
  have a1 : ∀ (b : Int) (q : Nat), b + (q : Int) + (rt.fields[c]).offset + ((x - fieldStart m rt.fields c : Nat) : Int) = b + (q : Int) + (x : Int) := by
    intro b q; omega
  rw [a1, a1] at e2
  exact e2

theorem shares_getElem {α : Type} (size : Nat → Nat) (F : Nat → Nat → α) : ∀ (n r i : Nat), r < n → i < size r →
    ((List.range n).flatMap fun r => (List.range (size r)).map (F r))[rowsBefore size r + i]? = some (F r i) := by
  intro n
  induction n with
  | zero => intro r i hr; omega
  | succ n ih =>
    intro r i hr hi
    have hlen : ((List.range n).flatMap fun r => (List.range (size r)).map (F r)).length = rowsBefore size n := by
      unfold rowsBefore
      rw [List.length_flatMap]
      congr 1
      apply List.map_congr_left
      intro r _
      simp
    rw [List.range_succ, List.flatMap_append]
    by_cases h : r < n
    · have := rows_le size h
      rw [List.getElem?_append_left (by rw [hlen]; omega)]
      exact ih r i h hi
    · have hrn : r = n := by omega
      subst hrn
      rw [List.getElem?_append_right (by rw [hlen]; omega), hlen, Nat.add_sub_cancel_left]
      simp [hi]

theorem allBytes_eq (rt : RType) (n : Nat) (size : Nat → Nat) (buf : Nat → Int) (mem : Nat → Mem) :
    allBytes rt n size buf mem = ((List.range n).flatMap fun r => (List.range (size r)).map fun i =>
      peek (mem r) (buf r + ((i * rt.itemsize : Nat) : Int)) rt.itemsize).flatten := by
  unfold allBytes
  induction n with
  | zero => rfl
  | succ n ih =>
    rw [List.range_succ, List.flatMap_append, List.flatMap_append, List.flatten_append, ← ih]
    congr 1
    simp only [List.flatMap_cons, List.flatMap_nil, List.append_nil]
    rw [peek_flatN, ← flatMap_range, List.flatMap_def]

/-- The same fields of the records, the same bytes, whoever has them. -/
theorem allBytes_ext {m : Machine} {rt : RType} (hc : Complete m rt) {n n' : Nat} {size size' : Nat → Nat} {buf buf' : Nat → Int}
    {mem mem' : Nat → Mem} (htot : rowsBefore size' n' = rowsBefore size n)
    (h : ∀ r, r < n → ∀ i, i < size r → ∀ r', r' < n' → ∀ i', i' < size' r' → rowsBefore size' r' + i' = rowsBefore size r + i →
      ∀ f ∈ rt.fields, fieldOf m rt (buf' r') (mem' r') i' f = fieldOf m rt (buf r) (mem r) i f) :
    allBytes rt n' size' buf' mem' = allBytes rt n size buf mem := by
  rw [allBytes_eq, allBytes_eq]
  congr 1
  apply List.ext_getElem?
  intro g
  by_cases hg : g < rowsBefore size n
  · obtain ⟨r, hr, i, hi, rfl⟩ := rowsBefore_split size hg
    obtain ⟨r', hr', i', hi', e⟩ := rowsBefore_split size' (show rowsBefore size r + i < rowsBefore size' n' by rw [htot]; exact hg)
    rw [shares_getElem size _ n r i hr hi, e, shares_getElem size' _ n' r' i' hr' hi']
    exact congrArg some (record_ext hc (h r hr i hi r' hr' i' hi' e.symm))
  · have hl : ∀ (n : Nat) (size : Nat → Nat) (F : Nat → Nat → List Byte),
        ((List.range n).flatMap fun r => (List.range (size r)).map (F r)).length = rowsBefore size n := by
      intro n size F
      unfold rowsBefore
      rw [List.length_flatMap]
      congr 1
      apply List.map_congr_left
      intro r _
      simp
    rw [List.getElem?_eq_none (by rw [hl]; omega), List.getElem?_eq_none (by rw [hl]; omega)]

/-- **C72** (round trip). Some processes, or one, write their records, one after the other in rank order, and the same or other
processes, as many or not, read so many records in shares of their own: what they have then, in rank order, are the same bytes. -/
theorem C72_round_trip (env : Env) (bf : CStr) (rt : RType) (T : RField → Content) (w : World) (hc : Complete env.m rt) (hbf : bf ≠ [])
    (hsh : ∀ f ∈ rt.fields, Sharable env bf f) (hap : FieldsApart bf rt.fields) (hnf : w.faults = noFaults) (ht : TreeOk w.fs)
    (h : ∀ f ∈ rt.fields, OnDisk env (fieldKind env f) w.fs (fieldPath bf f) (T f)) (p : Nat)
    (who who' : Option Nat) (size size' : Nat → Nat) (buf buf' : Nat → Int) (mem mem' : Nat → Mem) (conc conc' : Int) (thr thr' : Nat)
    (hs : sharesOk rt who size conc) (hs' : sharesOk rt who' size' conc')
    (htot : rowsBefore size' (who'.getD 1) = rowsBefore size (who.getD 1))
    (hfit : ∀ f ∈ rt.fields, p + rowsBefore size (who.getD 1) ≤ (T f).size) :
    (runROps env bf rt [.write who p size buf mem conc thr, .read who' p size' buf' mem' conc' thr']).Ensures faultless w fun xs _ =>
      ∃ a b, xs = [a, b] ∧ (∀ r, r < who.getD 1 → a.1 r = 0) ∧ (∀ r, r < who'.getD 1 → b.1 r = 0) ∧
        allBytes rt (who'.getD 1) size' buf' b.2 = allBytes rt (who.getD 1) size buf mem ∧
        ∀ r, r < who'.getD 1 → ∀ y, y < buf' r ∨ buf' r + ((size' r * rt.itemsize : Nat) : Int) ≤ y → b.2 r y = mem' r y := by
  have hput : ∀ f, ∀ r, r < who.getD 1 → ∀ i, i < size r →
      ((T f).put p (allOf env.m rt (who.getD 1) size buf mem f)).rows (p + (rowsBefore size r + i)) =
        some (fieldOf env.m rt (buf r) (mem r) i f) := by
    intro f r hr i hi
    have h1 := rows_le size hr
    unfold Content.put
    dsimp only
    rw [allOf_length, if_pos (by omega), show p + (rowsBefore size r + i) - p = rowsBefore size r + i by omega,
      List.getD_eq_getElem?_getD]
    unfold allOf
    rw [shares_getElem size (fun r i => fieldOf env.m rt (buf r) (mem r) i f) _ r i hr hi]
    rfl
  refine Phases.ensures_mono (C72_history env bf rt T _ w hc hbf hsh hap hnf ht h ⟨⟨hs, hfit⟩, ⟨hs', fun f hf => ⟨?_, fun q h1 h2 => ?_⟩⟩, trivial⟩) ?_
  · rw [htot]; exact hfit f hf
  · rw [htot] at h2
    obtain ⟨r, hr, i, hi, e⟩ := rowsBefore_split size (show q - p < rowsBefore size (who.getD 1) by omega)
    have := hput f r hr i hi
    rw [← e, show p + (q - p) = q by omega] at this
    show (((T f).put p (allOf env.m rt (who.getD 1) size buf mem f)).rows q).isSome = true
    rw [this]
    rfl
  · intro xs w' hx
    match xs, hx with
    | [a, b], ⟨⟨ha, hb, _⟩, _⟩ =>
      refine ⟨a, b, rfl, fun r hr => (ha r hr).1, fun r hr => (hb r hr).1, ?_, fun r hr => (hb r hr).2.2⟩
      apply allBytes_ext hc htot
      intro r hr i hi r' hr' i' hi' e f hf
      have h1 := (hb r' hr').2.1 f hf i' hi'
      have h2 := hput f r hr i hi
      rw [← e, ← Nat.add_assoc] at h2
      have h3 : ((T f).put p (allOf env.m rt (who.getD 1) size buf mem f)).rows (p + rowsBefore size' r' + i') =
        some (fieldOf env.m rt (buf' r') (b.2 r') i' f) := h1
      rw [h2] at h3
      injection h3 with h3
      exact h3.symm

/-! ## Examples -/

theorem exR3_sharable : ∀ f ∈ exR3.fields, Sharable exEnv b!"d" f := by
  intro f hf
  simp only [exR3, List.mem_cons, List.not_mem_nil, or_false] at hf
  rcases hf with rfl | rfl
  all_goals exact ⟨by decide, by decide, by decide, by decide, by decide⟩

/-- Three processes make the blocks of the two fields of `exR3`; two processes with two and one records write them at row 1; one
process reads the three records; then the blocks are extended, and four processes read. -/
example (mem mem2 mem3 : Nat → Mem) :
    (do let c ← mpiCreateRecords exEnv 3 b!"d" exR3 .wplus [2, 3]
        let xs ← runROps exEnv b!"d" exR3 [.write (some 2) 1 (fun r => 2 - r) (fun _ => 1000) mem 1 4096,
          .read none 1 (fun _ => 3) (fun _ => 5000) mem2 0 0, .extend (some 2) [4],
          .read (some 4) 2 (fun r => if r = 2 then 2 else 0) (fun _ => 7000) mem3 2 0]
        pure (c, xs) : Phases _).Ensures faultless exTreeWorld fun x _ => ∀ r, r < 3 → x.1 r = 0 := by
  apply Phases.ensures_bind
  refine Phases.ensures_mono (C72_create exEnv b!"d" exR3 3 [2, 3] exTreeWorld exFmt (by decide) rfl exTree_ok (by decide) (by decide) (by decide)
    (fun f hf => ⟨(exR3_makable f hf).1, exR3_sharable f hf, (exR3_makable f hf).2⟩) exR3_apart) ?_
  rintro c w1 ⟨h1, h2, h3, h4, _, _⟩
  apply Phases.ensures_bind
  refine Phases.ensures_mono (C72_history exEnv b!"d" exR3 (fun _ => Content.fresh [2, 3]) _ w1 exR3_complete (by decide) exR3_sharable exR3_apart
    h2 h3 h4 ?_) fun xs w2 _ => Phases.ensures_pure h1
  refine ⟨⟨⟨by decide, by decide, by decide, by decide⟩, fun _ _ => show 1 + 3 ≤ 5 by decide⟩,
    ⟨⟨by decide, by decide, by decide, by decide⟩, fun f _ => ⟨show 1 + 3 ≤ 5 by decide, fun q h1 h2 => ?_⟩⟩,
    ⟨by decide, by decide, fun f hf => ?_⟩, ⟨⟨by decide, by decide, by decide, by decide⟩, fun f _ => ⟨?_, fun q h1 h2 => ?_⟩⟩, trivial⟩
  · have h2 : q < 1 + 3 := h2
    show (Option.isSome (if 1 ≤ q ∧ q < 1 + List.length _ then _ else _)) = true
    rw [allOf_length, if_pos ⟨h1, h2⟩]
    rfl
  · simp only [exR3, List.mem_cons, List.not_mem_nil, or_false] at hf
    rcases hf with rfl | rfl
    · exact ⟨show 5 + 4 < _ by decide, show (5 + 4) * (2 * 3) < _ by decide, show 2 + 1 ≤ _ by decide⟩
    · exact ⟨show 5 + 4 < _ by decide, show (5 + 4) * (4 * 1) < _ by decide, show 2 + 1 ≤ _ by decide⟩
  · show 2 + 2 ≤ 5 + 4
    decide
  · have h2 : q < 2 + 2 := h2
    show (Option.isSome (if 1 ≤ q ∧ q < 1 + List.length _ then _ else _)) = true
    rw [allOf_length, if_pos ⟨by omega, by show q < 1 + 3; omega⟩]
    rfl

/-- Two processes with two and one records write at row 1; three processes read one record each. -/
example (mem mem2 : Nat → Mem) (w : World) (hnf : w.faults = noFaults) (ht : TreeOk w.fs)
    (h : ∀ f ∈ exR3.fields, OnDisk exEnv (fieldKind exEnv f) w.fs (fieldPath b!"d" f) (Content.fresh [2, 3])) :=
  C72_round_trip exEnv b!"d" exR3 (fun _ => Content.fresh [2, 3]) w exR3_complete (by decide) exR3_sharable exR3_apart hnf ht h 1
    (some 2) (some 3) (fun r => 2 - r) (fun _ => 1) (fun _ => 1000) (fun _ => 5000) mem mem2 1 1 0 0
    ⟨by decide, by decide, by decide, by decide⟩ ⟨by decide, by decide, by decide, by decide⟩ (by decide) (fun _ _ => by
      show 1 + rowsBefore (fun r => 2 - r) 2 ≤ 5
      decide)

end Verif
