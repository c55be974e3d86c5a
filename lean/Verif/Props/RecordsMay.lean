import Verif.Proof.RecordsMay
/-!
# C90: records of several processes while file operations fail
-/

set_option autoImplicit false

namespace Verif

open Spec

section
variable {env : Env} {bf : CStr} {rt : RType} {n : Nat} {size : Nat → Nat} {buf : Nat → Int} {p : Nat} {conc : Int} {thr : Nat}
  {A : RField → Content}

theorem Spec.HeaderCut.outside {fs fs' : FS} {base dst : CStr} {hb : Block} (h : HeaderCut fs base hb) (ha : Apart base dst)
    (ho : SameOutside dst fs fs') : HeaderCut fs' base hb := by
  obtain ⟨h1, k, h2⟩ := h
  exact ⟨h1, k, by rw [(ha.outside ho).2]; exact h2⟩

theorem Spec.RecordsCut.cons {A' : RField → Content} {k : Nat} {fields : List RField} {fs : FS} {g : RField}
    (h : RecordsCut env bf A A' p k fields fs) (hg : OnDisk env (fieldKind env g) fs (fieldPath bf g) (A' g)) :
    RecordsCut env bf A A' p k (g :: fields) fs := by
  obtain ⟨pre, f, post, rfl, h2, h3, h4⟩ := h
  refine ⟨g :: pre, f, post, rfl, fun x hx => ?_, h3, h4⟩
  rcases List.mem_cons.mp hx with rfl | hx
  · exact hg
  · exact h2 x hx

theorem write_fields_may (hc : Complete env.m rt) (hbf : bf ≠ []) (hn : 0 < n ∧ n < 2147483648)
    (hs : ∀ r, r < n → size r * rt.itemsize < 9223372036854775808) (hN : rowsBefore size n < 2147483648) (hconc : conc < 2147483648) :
    ∀ (fields : List RField) (mem : Nat → Mem) (w : World), NoSilent w.faults → (∀ f ∈ fields, f ∈ rt.fields ∧ Sharable env bf f ∧
        OnDisk env (fieldKind env f) w.fs (fieldPath bf f) (A f) ∧ (∃ hb, HeaderCut w.fs (fieldPath bf f) hb) ∧
        p + rowsBefore size n ≤ (A f).size) →
      FieldsApart bf fields → fields.Pairwise (fun f g => ColumnApart env.m rt f g ∧ ColumnApart env.m rt g f) →
      (mpiEachField n (mpiXferField env true n bf rt conc thr p size buf) fields mem).Withstands w
        (fun x w' => SameOutsideAll bf fields w.fs w'.fs ∧
          ((∀ r, r < n → x.1 r = 0) ∧
            (∀ f ∈ fields, OnDisk env (fieldKind env f) w'.fs (fieldPath bf f) ((A f).put p (allOf env.m rt n size buf mem f))) ∧
            (∀ r, r < n → ∀ y, (∀ f ∈ fields, ¬ InColumn env.m rt (buf r) (size r) f y) → x.2 r y = mem r y) ∨
          (∀ r, r < n → x.1 r = -1) ∧
            RecordsCut env bf A (fun f => (A f).put p (allOf env.m rt n size buf mem f)) p (rowsBefore size n) fields w'.fs))
        (fun fs => SameOutsideAll bf fields w.fs fs ∧
          RecordsCut env bf A (fun f => (A f).put p (allOf env.m rt n size buf mem f)) p (rowsBefore size n) fields fs) := by
  intro fields
  induction fields with
  | nil =>
    intro mem w _ _ _ _
    exact Phases.withstands_pure ⟨fun _ _ => rfl, .inl ⟨fun _ _ => rfl, fun f hf => absurd hf List.not_mem_nil, fun _ _ _ _ => rfl⟩⟩
  | cons f fs ih =>
    intro mem w hns hm hap hcol
    obtain ⟨hap1, hap2⟩ := List.pairwise_cons.mp hap
    obtain ⟨hcol1, hcol2⟩ := List.pairwise_cons.mp hcol
    obtain ⟨hm1, hm2, hm3, ⟨hb, hm4⟩, hm5⟩ := hm f (List.mem_cons_self ..)
    -- the transfer of the first field is not finished
    have here : ∀ fs1, SameOutside (fieldPath bf f) w.fs fs1 →
        Unfinished env (fieldKind env f) fs1 (fieldPath bf f) (A f) p (rowsBefore size n) →
        SameOutsideAll bf (f :: fs) w.fs fs1 ∧
        RecordsCut env bf A (fun f => (A f).put p (allOf env.m rt n size buf mem f)) p (rowsBefore size n) (f :: fs) fs1 := by
      intro fs1 ho hu
      exact ⟨fun k hk => ho k (hk f (List.mem_cons_self ..)), [], f, fs, rfl, fun g hg => absurd hg List.not_mem_nil, hu,
        fun g hg => (hm g (List.mem_cons_of_mem _ hg)).2.2.1.outside (hap1 g hg).2 ho⟩
    unfold mpiEachField
    apply Phases.withstands_bind
    refine Phases.withstands_mono (write_field_may (mem := mem) (thr := thr) hc hm1 hm2 hbf hn hns hs hN hconc hm3 hm4 hm5) ?_ ?_
    · rintro ⟨c, mem1⟩ w1 ⟨d1, d2, (⟨d3, d4, d5⟩ | ⟨d3, d4⟩)⟩
      · dsimp only at d3 d5 ⊢
        apply together0_may hn.1
        refine .inl ⟨d3, ?_⟩
        have e : ∀ g ∈ fs, allOf env.m rt n size buf mem1 g = allOf env.m rt n size buf mem g := by
          intro g hg
          unfold allOf
          apply flatMap_congr'
          intro r hr
          apply List.map_congr_left
          intro i _
          exact (hcol1 g hg).1 _ _ _ _ (fun y hy => d5 r (List.mem_range.mp hr) y hy) i
        have ecut : ∀ fs2, RecordsCut env bf A (fun f => (A f).put p (allOf env.m rt n size buf mem1 f)) p (rowsBefore size n) fs fs2 →
            RecordsCut env bf A (fun f => (A f).put p (allOf env.m rt n size buf mem f)) p (rowsBefore size n) fs fs2 := by
          rintro fs2 ⟨pre, f', post, h1, h2, h3, h4⟩
          refine ⟨pre, f', post, h1, fun g hg => ?_, h3, h4⟩
          have := h2 g hg
          dsimp only at this ⊢
          rw [e g (by rw [h1]; exact List.mem_append_left _ hg)] at this
          exact this
        have hout : ∀ fs2, SameOutsideAll bf fs w1.fs fs2 → SameOutsideAll bf (f :: fs) w.fs fs2 := by
          intro fs2 h k hk
          rw [h k fun g hg => hk g (List.mem_cons_of_mem _ hg)]
          exact d2 k (hk f (List.mem_cons_self ..))
        refine Phases.withstands_mono (ih mem1 w1 (by rw [d1]; exact hns) (fun g hg => ?_) hap2 hcol2) ?_ ?_
        · obtain ⟨h1, h2, h3, ⟨hb', h4⟩, h5⟩ := hm g (List.mem_cons_of_mem _ hg)
          exact ⟨h1, h2, h3.outside (hap1 g hg).2 d2, ⟨hb', h4.outside (hap1 g hg).2 d2⟩, h5⟩
        · rintro x w2 ⟨k1, k2⟩
          refine ⟨hout _ k1, ?_⟩
          have hfirst := k1.other (fun g' hg' => (hap1 g' hg').1) d4
          rcases k2 with ⟨k2, k3, k4⟩ | ⟨k2, k3⟩
          · refine .inl ⟨k2, fun g hg => ?_, fun r hr y hy => ?_⟩
            · rcases List.mem_cons.mp hg with rfl | hg
              · exact hfirst
              · rw [← e g hg]
                exact k3 g hg
            · rw [k4 r hr y fun g hg => hy g (List.mem_cons_of_mem _ hg)]
              exact d5 r hr y (hy f (List.mem_cons_self ..))
          · exact .inr ⟨k2, (ecut _ k3).cons hfirst⟩
        · rintro fs2 ⟨k1, k2⟩
          exact ⟨hout _ k1, (ecut _ k2).cons (k1.other (fun g' hg' => (hap1 g' hg').1) d4)⟩
      · apply together0_may hn.1
        obtain ⟨g1, g2⟩ := here w1.fs d2 d4
        exact .inr ⟨d3, Phases.withstands_pure ⟨g1, .inr ⟨fun _ _ => rfl, g2⟩⟩⟩
    · rintro fs1 ⟨d1, d2⟩
      exact here fs1 d1 d2

theorem read_fields_may (hc : Complete env.m rt) (hbf : bf ≠ []) (hn : 0 < n ∧ n < 2147483648)
    (hs : ∀ r, r < n → size r * rt.itemsize < 9223372036854775808) (hN : rowsBefore size n < 2147483648) (hconc : conc < 2147483648) :
    ∀ (fields : List RField) (mem : Nat → Mem) (w : World), (∀ f ∈ fields, f ∈ rt.fields ∧ Sharable env bf f ∧
        OnDisk env (fieldKind env f) w.fs (fieldPath bf f) (A f) ∧ (∃ hb, HeaderCut w.fs (fieldPath bf f) hb) ∧
        p + rowsBefore size n ≤ (A f).size ∧ ∀ q, p ≤ q → q < p + rowsBefore size n → ((A f).rows q).isSome = true) →
      fields.Pairwise (fun f g => ColumnApart env.m rt f g ∧ ColumnApart env.m rt g f) →
      (mpiEachField n (mpiXferField env false n bf rt conc thr p size buf) fields mem).Withstands w
        (fun x w' => w'.fs.node = w.fs.node ∧
          ((∀ r, r < n → x.1 r = 0) ∧
            (∀ f ∈ fields, ∀ r, r < n → ∀ i, i < size r →
              (A f).rows (p + rowsBefore size r + i) = some (fieldOf env.m rt (buf r) (x.2 r) i f)) ∧
            (∀ g, (∀ f ∈ fields, ColumnApart env.m rt f g) → ∀ r, r < n → ∀ i,
              fieldOf env.m rt (buf r) (x.2 r) i g = fieldOf env.m rt (buf r) (mem r) i g) ∧
            (∀ r, r < n → ∀ y, (∀ f ∈ fields, ¬ InColumn env.m rt (buf r) (size r) f y) → x.2 r y = mem r y) ∨
          (∀ r, r < n → x.1 r = -1)))
        (fun fs => fs.node = w.fs.node) := by
  intro fields
  induction fields with
  | nil =>
    intro mem w _ _
    exact Phases.withstands_pure ⟨rfl, .inl ⟨fun _ _ => rfl, fun f hf => absurd hf List.not_mem_nil, fun _ _ _ _ _ => rfl,
      fun _ _ _ _ => rfl⟩⟩
  | cons f fs ih =>
    intro mem w hm hcol
    obtain ⟨hcol1, hcol2⟩ := List.pairwise_cons.mp hcol
    obtain ⟨hm1, hm2, hm3, ⟨hb, hm4⟩, hm5, hm6⟩ := hm f (List.mem_cons_self ..)
    unfold mpiEachField
    apply Phases.withstands_bind
    refine Phases.withstands_mono (read_field_may (mem := mem) (thr := thr) hc hm1 hm2 hbf hn hs hN hconc hm3 hm4 hm5 hm6) ?_ (fun _ h => h)
    rintro ⟨c, mem1⟩ w1 ⟨_, d2, (⟨d3, d4, d5⟩ | d3)⟩
    · dsimp only at d3 d4 d5 ⊢
      apply together0_may hn.1
      refine .inl ⟨d3, ?_⟩
      refine Phases.withstands_mono (ih mem1 w1 (fun g hg => ?_) hcol2) ?_ (fun _ h => h.trans d2)
      · obtain ⟨h1, h2, h3, ⟨hb', h4⟩, h5⟩ := hm g (List.mem_cons_of_mem _ hg)
        refine ⟨h1, h2, h3.congr ?_ fun _ => ?_, ⟨hb', ?_⟩, h5⟩
        · rw [d2]
        · rw [d2]
        · obtain ⟨g1, k, g2⟩ := h4
          exact ⟨g1, k, by rw [d2]; exact g2⟩
      · rintro x w2 ⟨k1, k2⟩
        refine ⟨k1.trans d2, ?_⟩
        rcases k2 with ⟨k2, k3, k4, k5⟩ | k2
        · refine .inl ⟨k2, fun g hg r hr i hi => ?_, fun g hg r hr i => ?_, fun r hr y hy => ?_⟩
          · rcases List.mem_cons.mp hg with rfl | hg
            · rw [k4 g (fun g' hg' => (hcol1 g' hg').2) r hr i]
              exact d4 r hr i hi
            · exact k3 g hg r hr i hi
          · rw [k4 g (fun g' hg' => hg g' (List.mem_cons_of_mem _ hg')) r hr i]
            exact hg f (List.mem_cons_self ..) _ _ _ _ (fun y hy => d5 r hr y hy) i
          · rw [k5 r hr y fun g hg => hy g (List.mem_cons_of_mem _ hg)]
            exact d5 r hr y (hy f (List.mem_cons_self ..))
        · exact .inr k2
    · apply together0_may hn.1
      exact .inr ⟨d3, Phases.withstands_pure ⟨d2, .inr fun _ _ => rfl⟩⟩

end

/-- **C90, writing** (partial: failures that lose buffered data without an error are excluded; the header of each block was
written by this library). `n` processes write their records together while file operations of any of them fail, and may be
killed at any moment. No process crashes or waits for ever, and all get the same code, 0 or -1. With 0, the block of every
field holds the records of all processes in rank order. Otherwise, and after a kill, the fields up to some field are complete,
those after it are as before, and in this one only the rows that were to be written can have been lost; its header may be
damaged. Nothing but files of these blocks changes. -/
theorem C90_write_partial (env : Env) (bf : CStr) (rt : RType) (n : Nat) (conc : Int) (thr : Nat) (p : Nat) (size : Nat → Nat)
    (buf : Nat → Int) (mem : Nat → Mem) (w : World) (A : RField → Content) (hc : Complete env.m rt) (hbf : bf ≠ [])
    (hn : 0 < n ∧ n < 2147483648) (hs : ∀ r, r < n → size r * rt.itemsize < 9223372036854775808)
    (hN : rowsBefore size n < 2147483648) (hconc : conc < 2147483648) (hns : NoSilent w.faults)
    (hf : ∀ f ∈ rt.fields, Sharable env bf f ∧ OnDisk env (fieldKind env f) w.fs (fieldPath bf f) (A f) ∧
      (∃ hb, HeaderCut w.fs (fieldPath bf f) hb) ∧ p + rowsBefore size n ≤ (A f).size)
    (hap : FieldsApart bf rt.fields) :
    (mpiWriteRecords env n bf rt conc thr p size buf mem).Withstands w
      (fun x w' => SameOutsideAll bf rt.fields w.fs w'.fs ∧
        ((∀ r, r < n → x.1 r = 0) ∧
          (∀ f ∈ rt.fields, OnDisk env (fieldKind env f) w'.fs (fieldPath bf f) ((A f).put p (allOf env.m rt n size buf mem f))) ∧
          (∀ r, r < n → ∀ y, y < buf r ∨ buf r + ((size r * rt.itemsize : Nat) : Int) ≤ y → x.2 r y = mem r y) ∨
        (∀ r, r < n → x.1 r = -1) ∧
          RecordsCut env bf A (fun f => (A f).put p (allOf env.m rt n size buf mem f)) p (rowsBefore size n) rt.fields w'.fs))
      (fun fs => SameOutsideAll bf rt.fields w.fs fs ∧
        RecordsCut env bf A (fun f => (A f).put p (allOf env.m rt n size buf mem f)) p (rowsBefore size n) rt.fields fs) := by
  refine Phases.withstands_mono (write_fields_may (thr := thr) (A := A) (p := p) (size := size) (buf := buf) hc hbf hn hs hN hconc rt.fields mem w hns
    (fun f h => ⟨h, hf f h⟩) hap (columns_apart hc)) ?_ (fun _ h => h)
  rintro x w' ⟨h1, (⟨h2, h3, h4⟩ | h2)⟩
  · exact ⟨h1, .inl ⟨h2, h3, fun r hr y hy => h4 r hr y (not_inColumn hc hy)⟩⟩
  · exact ⟨h1, .inr h2⟩

/-- **C90, reading** (partial: the header of each block was written by this library). `n` processes read their records
together while file operations of any of them fail, and may be killed at any moment. Nothing on disk changes, no process
crashes or waits for ever, and all get the same code, 0 or -1. With 0, every process has its records, as they were written. -/
theorem C90_read_partial (env : Env) (bf : CStr) (rt : RType) (n : Nat) (conc : Int) (thr : Nat) (p : Nat) (size : Nat → Nat)
    (buf : Nat → Int) (mem : Nat → Mem) (w : World) (A : RField → Content) (hc : Complete env.m rt) (hbf : bf ≠ [])
    (hn : 0 < n ∧ n < 2147483648) (hs : ∀ r, r < n → size r * rt.itemsize < 9223372036854775808)
    (hN : rowsBefore size n < 2147483648) (hconc : conc < 2147483648)
    (hf : ∀ f ∈ rt.fields, Sharable env bf f ∧ OnDisk env (fieldKind env f) w.fs (fieldPath bf f) (A f) ∧
      (∃ hb, HeaderCut w.fs (fieldPath bf f) hb) ∧ p + rowsBefore size n ≤ (A f).size ∧
      ∀ q, p ≤ q → q < p + rowsBefore size n → ((A f).rows q).isSome = true) :
    (mpiReadRecords env n bf rt conc thr p size buf mem).Withstands w
      (fun x w' => w'.fs.node = w.fs.node ∧
        ((∀ r, r < n → x.1 r = 0 ∧
          (∀ f ∈ rt.fields, ∀ i, i < size r →
            (A f).rows (p + rowsBefore size r + i) = some (fieldOf env.m rt (buf r) (x.2 r) i f)) ∧
          (∀ y, y < buf r ∨ buf r + ((size r * rt.itemsize : Nat) : Int) ≤ y → x.2 r y = mem r y)) ∨
        (∀ r, r < n → x.1 r = -1)))
      (fun fs => fs.node = w.fs.node) := by
  refine Phases.withstands_mono (read_fields_may (thr := thr) (A := A) (p := p) (size := size) (buf := buf) hc hbf hn hs hN hconc rt.fields mem w
    (fun f h => ⟨h, hf f h⟩) (columns_apart hc)) ?_ (fun _ h => h)
  rintro x w' ⟨h1, (⟨h2, h3, _, h4⟩ | h2)⟩
  · exact ⟨h1, .inl fun r hr => ⟨h2 r hr, fun f hf i hi => h3 f hf r hr i hi, fun y hy => h4 r hr y (not_inColumn hc hy)⟩⟩
  · exact ⟨h1, .inr h2⟩

theorem grow_fields_may {env : Env} {bf : CStr} {n : Nat} {A : RField → Content} {fsize : List Nat} (hbf : bf ≠ []) (hn : 0 < n ∧ n < 2147483648) :
    ∀ (fields : List RField) (mem : Nat → Mem) (w : World), NoSilent w.faults → (∀ f ∈ fields, Sharable env bf f ∧
        OnDisk env (fieldKind env f) w.fs (fieldPath bf f) (A f) ∧ (∃ hb, HeaderCut w.fs (fieldPath bf f) hb) ∧
        (A f).legal env (fieldKind env f) (.grow fsize)) →
      FieldsApart bf fields →
      (mpiEachField n (fun f mem => do
          let c ← mpiCreateField env n bf .aplus fsize f
          pure (c, mem)) fields mem).Withstands w
        (fun x w' => SameOutsideAll bf fields w.fs w'.fs ∧
          ((∀ r, r < n → x.1 r = 0) ∧ (∀ f ∈ fields, OnDisk env (fieldKind env f) w'.fs (fieldPath bf f) ((A f).grown fsize)) ∨
          (∀ r, r < n → x.1 r = -1) ∧ ExtensionCut env bf A fsize fields w'.fs))
        (fun fs => SameOutsideAll bf fields w.fs fs ∧ ExtensionCut env bf A fsize fields fs) := by
  intro fields
  induction fields with
  | nil =>
    intro mem w _ _ _
    exact Phases.withstands_pure ⟨fun _ _ => rfl, .inl ⟨fun _ _ => rfl, fun f hf => absurd hf List.not_mem_nil⟩⟩
  | cons f fs ih =>
    intro mem w hns hm hap
    obtain ⟨hap1, hap2⟩ := List.pairwise_cons.mp hap
    obtain ⟨hm2, hm3, ⟨hb, hm4⟩, hm5⟩ := hm f (List.mem_cons_self ..)
    have here : ∀ fs1, SameOutside (fieldPath bf f) w.fs fs1 →
        Ungrown env (fieldKind env f) fs1 (fieldPath bf f) (A f) fsize →
        SameOutsideAll bf (f :: fs) w.fs fs1 ∧ ExtensionCut env bf A fsize (f :: fs) fs1 := by
      intro fs1 ho hu
      exact ⟨fun k hk => ho k (hk f (List.mem_cons_self ..)), [], f, fs, rfl, fun g hg => absurd hg List.not_mem_nil, hu,
        fun g hg => (hm g (List.mem_cons_of_mem _ hg)).2.1.outside (hap1 g hg).2 ho⟩
    have cons : ∀ fs2, ExtensionCut env bf A fsize fs fs2 → OnDisk env (fieldKind env f) fs2 (fieldPath bf f) ((A f).grown fsize) →
        ExtensionCut env bf A fsize (f :: fs) fs2 := by
      rintro fs2 ⟨pre, f', post, rfl, h2, h3, h4⟩ hg
      refine ⟨f :: pre, f', post, rfl, fun x hx => ?_, h3, h4⟩
      rcases List.mem_cons.mp hx with rfl | hx
      · exact hg
      · exact h2 x hx
    unfold mpiEachField
    apply Phases.withstands_bind
    apply Phases.withstands_bind
    refine Phases.withstands_mono (grow_field_may hm2 hbf hn hns hm3 hm4 hm5) ?_ ?_
    · rintro c w1 ⟨d1, d2, (⟨d3, d4⟩ | ⟨d3, d4⟩)⟩
      · apply Phases.withstands_pure
        apply together0_may hn.1
        refine .inl ⟨d3, ?_⟩
        have hout : ∀ fs2, SameOutsideAll bf fs w1.fs fs2 → SameOutsideAll bf (f :: fs) w.fs fs2 := by
          intro fs2 h k hk
          rw [h k fun g hg => hk g (List.mem_cons_of_mem _ hg)]
          exact d2 k (hk f (List.mem_cons_self ..))
        refine Phases.withstands_mono (ih mem w1 (by rw [d1]; exact hns) (fun g hg => ?_) hap2) ?_ ?_
        · obtain ⟨h2, h3, ⟨hb', h4⟩, h5⟩ := hm g (List.mem_cons_of_mem _ hg)
          exact ⟨h2, h3.outside (hap1 g hg).2 d2, ⟨hb', h4.outside (hap1 g hg).2 d2⟩, h5⟩
        · rintro x w2 ⟨k1, k2⟩
          refine ⟨hout _ k1, ?_⟩
          have hfirst := k1.other (fun g' hg' => (hap1 g' hg').1) d4
          rcases k2 with ⟨k2, k3⟩ | ⟨k2, k3⟩
          · refine .inl ⟨k2, fun g hg => ?_⟩
            rcases List.mem_cons.mp hg with rfl | hg
            · exact hfirst
            · exact k3 g hg
          · exact .inr ⟨k2, cons _ k3 hfirst⟩
        · rintro fs2 ⟨k1, k2⟩
          exact ⟨hout _ k1, cons _ k2 (k1.other (fun g' hg' => (hap1 g' hg').1) d4)⟩
      · apply Phases.withstands_pure
        apply together0_may hn.1
        obtain ⟨g1, g2⟩ := here w1.fs d2 d4
        exact .inr ⟨d3, Phases.withstands_pure ⟨g1, .inr ⟨fun _ _ => rfl, g2⟩⟩⟩
    · rintro fs1 ⟨d1, d2⟩
      exact here fs1 d1 d2

/-- **C90, extending** (partial as for writing). `n` processes extend the blocks of all fields by files of the sizes `fsize`
while file operations of any of them fail, and may be killed at any moment. No process crashes or waits for ever, and all get the
same code, 0 or -1. With 0 every block has grown and holds what it held. Otherwise, and after a kill, the blocks up to some
field have grown, those after it are as before, and the directory of this one still holds all rows and stored attributes; its
header may be damaged, or record the new size while new files are missing. -/
theorem C90_extend_partial (env : Env) (bf : CStr) (rt : RType) (n : Nat) (fsize : List Nat) (w : World) (A : RField → Content)
    (hbf : bf ≠ []) (hn : 0 < n ∧ n < 2147483648) (hns : NoSilent w.faults)
    (hf : ∀ f ∈ rt.fields, Sharable env bf f ∧ OnDisk env (fieldKind env f) w.fs (fieldPath bf f) (A f) ∧
      (∃ hb, HeaderCut w.fs (fieldPath bf f) hb) ∧ (A f).legal env (fieldKind env f) (.grow fsize))
    (hap : FieldsApart bf rt.fields) :
    (mpiCreateRecords env n bf rt .aplus fsize).Withstands w
      (fun c w' => SameOutsideAll bf rt.fields w.fs w'.fs ∧
        ((∀ r, r < n → c r = 0) ∧ (∀ f ∈ rt.fields, OnDisk env (fieldKind env f) w'.fs (fieldPath bf f) ((A f).grown fsize)) ∨
        (∀ r, r < n → c r = -1) ∧ ExtensionCut env bf A fsize rt.fields w'.fs))
      (fun fs => SameOutsideAll bf rt.fields w.fs fs ∧ ExtensionCut env bf A fsize rt.fields fs) := by
  unfold mpiCreateRecords
  apply Phases.withstands_bind
  refine Phases.withstands_mono (grow_fields_may (A := A) hbf hn rt.fields _ w hns hf hap) ?_ (fun _ h => h)
  rintro x w' h
  exact Phases.withstands_pure h

theorem make_fields_may {env : Env} {bf : CStr} {n : Nat} {fsize : List Nat} (hfmt : FmtOk env) (hbufM : env.chunkBytes < 18446744073709551616)
    (hbf : bf ≠ []) (hn : 0 < n ∧ n < 2147483648) :
    ∀ (fields : List RField) (mem : Nat → Mem) (w : World), NoSilent w.faults → (∀ f ∈ fields, Makable env bf f ∧ Sharable env bf f ∧
        SizesOk env fsize f ∧ Room w.fs (fieldPath bf f)) →
      FieldsApart bf fields →
      (mpiEachField n (fun f mem => do
          let c ← mpiCreateField env n bf .wplus fsize f
          pure (c, mem)) fields mem).Withstands w
        (fun x w' => (∀ r, r < n → x.1 r = 0) ∧ OnlyMadeAll bf fields w.fs w'.fs ∧
            (∀ f ∈ fields, OnDisk env (fieldKind env f) w'.fs (fieldPath bf f) (Content.fresh fsize)) ∨
          (∀ r, r < n → x.1 r = -1) ∧ CreationCut env bf fsize fields w.fs w'.fs)
        (fun fs => CreationCut env bf fsize fields w.fs fs) := by
  intro fields
  induction fields with
  | nil =>
    intro mem w _ _ _
    exact Phases.withstands_pure (.inl ⟨fun _ _ => rfl, fun k hk => absurd rfl hk, fun f hf => absurd hf List.not_mem_nil⟩)
  | cons f fs ih =>
    intro mem w hns hm hap
    obtain ⟨hap1, hap2⟩ := List.pairwise_cons.mp hap
    obtain ⟨hm1, hm2, hm3, hm4⟩ := hm f (List.mem_cons_self ..)
    have here : ∀ fs1, OnlyMade (fieldPath bf f) w.fs fs1 → CreationCut env bf fsize (f :: fs) w.fs fs1 := by
      intro fs1 ho
      exact ⟨[], f, fs, rfl, fun g hg => absurd hg List.not_mem_nil, fun k hk => ⟨f, List.mem_cons_self .., ho k hk⟩⟩
    have later : ∀ {fs1 fs2 : FS} {l : List RField}, OnlyMade (fieldPath bf f) w.fs fs1 → OnlyMadeAll bf l fs1 fs2 →
        OnlyMadeAll bf (f :: l) w.fs fs2 := by
      intro fs1 fs2 l h1 h2 k hk
      by_cases he : fs2.node k = fs1.node k
      · refine ⟨f, List.mem_cons_self .., ?_⟩
        rw [he] at hk ⊢
        exact h1 k hk
      · obtain ⟨g, hg, h3⟩ := h2 k he
        by_cases he' : fs1.node k = w.fs.node k
        · refine ⟨g, List.mem_cons_of_mem _ hg, ?_⟩
          rw [he'] at h3
          exact h3
        · rcases h1 k he' with h4 | ⟨h4, h5, h6⟩
          · exact ⟨f, List.mem_cons_self .., .inl h4⟩
          · refine ⟨g, List.mem_cons_of_mem _ hg, ?_⟩
            rcases h3 with h3 | ⟨h3, h7, _⟩
            · exact .inl h3
            · rw [h6] at h7
              cases h7
    have first : ∀ {fs1 fs2 : FS} {l : List RField}, (∀ g ∈ l, g ∈ fs) → OnDisk env (fieldKind env f) fs1 (fieldPath bf f) (Content.fresh fsize) →
        OnlyMadeAll bf l fs1 fs2 → OnDisk env (fieldKind env f) fs2 (fieldPath bf f) (Content.fresh fsize) := by
      intro fs1 fs2 l hl hd ho
      have hdir : fs1.node (resolve (fieldPath bf f)) = some .dir := by
        obtain ⟨_, _, b, hb, _, h⟩ := hd
        rw [← hb]
        exact h.dir.dir
      apply hd.congr
      · by_cases he : fs2.node (resolve (fieldPath bf f)) = fs1.node (resolve (fieldPath bf f))
        · exact he
        · obtain ⟨g, hg, ⟨id, h1⟩ | ⟨_, h1, _⟩⟩ := ho _ he
          · exact absurd h1 ((hap1 g (hl g hg)).1.notFile id)
          · rw [h1] at hdir
            cases hdir
      · intro id
        by_cases he : fs2.node (fileKey (fieldPath bf f) id) = fs1.node (fileKey (fieldPath bf f) id)
        · exact he
        · obtain ⟨g, hg, ⟨id', h1⟩ | ⟨h1, _, _⟩⟩ := ho _ he
          · exact absurd (C38_files_distinct _ _ _ _ h1).1 (hap1 g (hl g hg)).1.ne
          · exact absurd h1 ((hap1 g (hl g hg)).1.notBelow id)
    have cons : ∀ fs1 fs2, OnlyMade (fieldPath bf f) w.fs fs1 →
        OnDisk env (fieldKind env f) fs1 (fieldPath bf f) (Content.fresh fsize) → CreationCut env bf fsize fs fs1 fs2 →
        CreationCut env bf fsize (f :: fs) w.fs fs2 := by
      rintro fs1 fs2 h1 hd ⟨pre, f', post, rfl, h2, h3⟩
      refine ⟨f :: pre, f', post, rfl, fun x hx => ?_, later h1 h3⟩
      rcases List.mem_cons.mp hx with rfl | hx
      · refine first (fun g hg => ?_) hd h3
        rcases List.mem_append.mp hg with hg | hg
        · exact List.mem_append_left _ hg
        · rw [List.mem_singleton.mp hg]
          exact List.mem_append_right _ (List.mem_cons_self ..)
      · exact h2 x hx
    unfold mpiEachField
    apply Phases.withstands_bind
    apply Phases.withstands_bind
    refine Phases.withstands_mono (make_field_may hfmt hbufM hns hbf hn hm1 hm2 hm3 hm4) ?_ (fun fs1 h => here fs1 h)
    rintro c w1 ⟨d1, d2, (⟨d3, d4⟩ | d3)⟩
    · apply Phases.withstands_pure
      apply together0_may hn.1
      refine .inl ⟨d3, ?_⟩
      refine Phases.withstands_mono (ih mem w1 (by rw [d1]; exact hns) (fun g hg => ?_) hap2) ?_ ?_
      · obtain ⟨h1, h2, h3, h4⟩ := hm g (List.mem_cons_of_mem _ hg)
        exact ⟨h1, h2, h3, h4.made (hap1 g hg).2 (hap1 g hg).1 d2⟩
      · rintro x w2 (⟨k1, k2, k3⟩ | ⟨k1, k2⟩)
        · refine .inl ⟨k1, later d2 k2, fun g hg => ?_⟩
          rcases List.mem_cons.mp hg with rfl | hg
          · exact first (fun _ h => h) d4 k2
          · exact k3 g hg
        · exact .inr ⟨k1, cons _ _ d2 d4 k2⟩
      · intro fs2 k
        exact cons _ _ d2 d4 k
    · apply Phases.withstands_pure
      apply together0_may hn.1
      exact .inr ⟨d3, Phases.withstands_pure (.inr ⟨fun _ _ => rfl, here _ d2⟩)⟩

/-- **C90, making** (partial as for writing). Where there is room, `n` processes make the blocks of all fields while file
operations of any of them fail, and may be killed at any moment. No process crashes or waits for ever, and all get the
same code, 0 or -1. With 0 every block is there, empty. Otherwise, and after a kill, the blocks before some field are complete,
and nothing has changed but the files of these and of this field's block, and new directories on the way to them. -/
theorem C90_create_partial (env : Env) (bf : CStr) (rt : RType) (n : Nat) (fsize : List Nat) (w : World) (hfmt : FmtOk env)
    (hbufM : env.chunkBytes < 18446744073709551616) (hns : NoSilent w.faults) (hbf : bf ≠ []) (hn : 0 < n ∧ n < 2147483648)
    (hm : ∀ f ∈ rt.fields, Makable env bf f ∧ Sharable env bf f ∧ SizesOk env fsize f ∧ Room w.fs (fieldPath bf f))
    (hap : FieldsApart bf rt.fields) :
    (mpiCreateRecords env n bf rt .wplus fsize).Withstands w
      (fun c w' => (∀ r, r < n → c r = 0) ∧ OnlyMadeAll bf rt.fields w.fs w'.fs ∧
          (∀ f ∈ rt.fields, OnDisk env (fieldKind env f) w'.fs (fieldPath bf f) (Content.fresh fsize)) ∨
        (∀ r, r < n → c r = -1) ∧ CreationCut env bf fsize rt.fields w.fs w'.fs)
      (fun fs => CreationCut env bf fsize rt.fields w.fs fs) := by
  unfold mpiCreateRecords
  apply Phases.withstands_bind
  refine Phases.withstands_mono (make_fields_may hfmt hbufM hbf hn rt.fields _ w hns hm hap) ?_ (fun _ h => h)
  rintro x w' h
  exact Phases.withstands_pure h

/-- **C90, after the end.** `n` processes write or read records from a row after the end of the first field's block, and whatever else
fails: all get -1, their memory is as it was, and nothing has changed on disk. -/
theorem C90_outside (env : Env) (write : Bool) (bf : CStr) (rt : RType) (n : Nat) (conc : Int) (thr : Nat) (p : Nat) (size : Nat → Nat)
    (buf : Nat → Int) (mem : Nat → Mem) (w : World) (A : Content) (f : RField) (rest : List RField) (hb : Block) (hc : Complete env.m rt)
    (hbf : bf ≠ []) (hn : 0 < n ∧ n < 2147483648) (hs : ∀ r, r < n → size r * rt.itemsize < 9223372036854775808)
    (hfs : rt.fields = f :: rest) (hsh : Sharable env bf f) (hd : OnDisk env (fieldKind env f) w.fs (fieldPath bf f) A)
    (hcut : HeaderCut w.fs (fieldPath bf f) hb) (hp : A.size < p) (hp1 : p < 9223372036854775808) :
    (if write then mpiWriteRecords env n bf rt conc thr p size buf mem else mpiReadRecords env n bf rt conc thr p size buf mem).Withstands w
      (fun x w' => w'.fs.node = w.fs.node ∧ ∀ r, r < n → x.1 r = -1 ∧ x.2 r = mem r) (fun fs => fs.node = w.fs.node) := by
  have e : (if write then mpiWriteRecords env n bf rt conc thr p size buf mem else mpiReadRecords env n bf rt conc thr p size buf mem) =
      mpiEachField n (mpiXferField env write n bf rt conc thr p size buf) (f :: rest) mem := by
    rw [← hfs]
    cases write <;> rfl
  rw [e]
  unfold mpiEachField
  apply Phases.withstands_bind
  refine Phases.withstands_mono (outside_field_may write hc (by rw [hfs]; exact List.mem_cons_self ..) hsh hbf hn hs hd hcut hp hp1) ?_ (fun _ h => h)
  rintro ⟨c, mem1⟩ w1 ⟨_, h2, h3⟩
  apply together0_may hn.1
  exact .inr ⟨fun r hr => (h3 r hr).1, Phases.withstands_pure ⟨h2, fun r hr => ⟨rfl, (h3 r hr).2⟩⟩⟩

/-! ## Example -/

/-- Three processes make the blocks of `exR3` while anything fails. -/
example (faults : Nat → Fault) (hns : NoSilent faults) :
    (mpiCreateRecords exEnv 3 b!"d" exR3 .wplus [2, 3]).Withstands { exTreeWorld with faults := faults }
      (fun c w' => (∀ r, r < 3 → c r = 0) ∧ OnlyMadeAll b!"d" exR3.fields exTreeWorld.fs w'.fs ∧
          (∀ f ∈ exR3.fields, OnDisk exEnv (fieldKind exEnv f) w'.fs (fieldPath b!"d" f) (Content.fresh [2, 3])) ∨
        (∀ r, r < 3 → c r = -1) ∧ CreationCut exEnv b!"d" [2, 3] exR3.fields exTreeWorld.fs w'.fs)
      (fun fs => CreationCut exEnv b!"d" [2, 3] exR3.fields exTreeWorld.fs fs) :=
  C90_create_partial exEnv b!"d" exR3 3 [2, 3] { exTreeWorld with faults := faults } exFmt (by decide) hns (by decide) (by decide)
    (fun f hf => ⟨(exR3_makable f hf).1, exR3_sharable f hf, (exR3_makable f hf).2⟩) exR3_apart

/-- The two headers of the blocks of `exR3`. -/
def exR3Hdr (f : RField) : Block :=
  ⟨if f.name = some b!"p" then b!"<i2" else b!">i4", if f.name = some b!"p" then 3 else 1, [], 5, [2, 3], [0, 2, 5], [0, 0], 2,
    attrsetCreate exEnv, false⟩

theorem exR3Hdr_good : ∀ f ∈ exR3.fields, GoodHeader (exR3Hdr f) := by
  intro f hf
  simp only [exR3, List.mem_cons, List.not_mem_nil, or_false] at hf
  rcases hf with rfl | rfl
  all_goals exact ⟨⟨by decide, by decide, by decide, by decide⟩, by decide, by decide, rfl, rfl, by decide, by decide, by decide⟩

/-- The blocks of `exR3` are made; then two processes write two and one records at row 1 while anything fails. -/
example (mem : Nat → Mem) : ∃ w1, createRecords exEnv b!"d" exR3 .wplus [2, 3] exTreeWorld = .ok 0 w1 ∧ ∀ faults, NoSilent faults →
    (mpiWriteRecords exEnv 2 b!"d" exR3 1 4096 1 (fun r => 2 - r) (fun _ => 1000) mem).Withstands { w1 with faults := faults }
      (fun x w' => SameOutsideAll b!"d" exR3.fields w1.fs w'.fs ∧
        ((∀ r, r < 2 → x.1 r = 0) ∧
          (∀ f ∈ exR3.fields, OnDisk exEnv (fieldKind exEnv f) w'.fs (fieldPath b!"d" f)
            ((Content.fresh [2, 3]).put 1 (allOf exEnv.m exR3 2 (fun r => 2 - r) (fun _ => 1000) mem f))) ∧
          (∀ r, r < 2 → ∀ y : Int, y < 1000 ∨ 1000 + (((2 - r) * exR3.itemsize : Nat) : Int) ≤ y → x.2 r y = mem r y) ∨
        (∀ r, r < 2 → x.1 r = -1) ∧
          RecordsCut exEnv b!"d" (fun _ => Content.fresh [2, 3])
            (fun f => (Content.fresh [2, 3]).put 1 (allOf exEnv.m exR3 2 (fun r => 2 - r) (fun _ => 1000) mem f)) 1
            (rowsBefore (fun r => 2 - r) 2) exR3.fields w'.fs))
      (fun fs => SameOutsideAll b!"d" exR3.fields w1.fs fs ∧
        RecordsCut exEnv b!"d" (fun _ => Content.fresh [2, 3])
          (fun f => (Content.fresh [2, 3]).put 1 (allOf exEnv.m exR3 2 (fun r => 2 - r) (fun _ => 1000) mem f)) 1
          (rowsBefore (fun r => 2 - r) 2) exR3.fields fs) := by
  obtain ⟨w1, e1, _, _, d1, _⟩ := C65_create exEnv b!"d" exR3 [2, 3] exTreeWorld exFmt (by decide) rfl
    exTree_ok (by decide) (by decide) exR3_makable exR3_apart
  have hchk : (createRecords exEnv b!"d" exR3 .wplus [2, 3] exTreeWorld).fs?.map (fun fs => exR3.fields.all fun f =>
      (fs.node (fileKey (fieldPath b!"d" f) .header) = some (.file ((headerText (exR3Hdr f)).take 1000)) : Bool)) = some true := by
    decide +kernel
  rw [e1] at hchk
  simp only [Res.fs?, Option.map_some, Option.some.injEq, List.all_eq_true, decide_eq_true_eq] at hchk
  refine ⟨w1, e1, fun faults hns => ?_⟩
  exact C90_write_partial exEnv b!"d" exR3 2 1 4096 1 (fun r => 2 - r) (fun _ => 1000) mem { w1 with faults := faults }
    (fun _ => Content.fresh [2, 3]) exR3_complete (by decide) (by decide) (by decide) (by decide) (by decide) hns
    (fun f hf => ⟨exR3_sharable f hf, d1 f hf, ⟨exR3Hdr f, exR3Hdr_good f hf, 1000, hchk f hf⟩, by
      show 1 + rowsBefore (fun r => 2 - r) 2 ≤ 5
      decide⟩) exR3_apart

/-- One process writes three records at row 1; then two processes read them while anything fails. -/
example (mem : Nat → Mem) : ∃ w1 mem1 w2, createRecords exEnv b!"d" exR3 .wplus [2, 3] exTreeWorld = .ok 0 w1 ∧
    writeRecords exEnv b!"d" exR3 1 3 1000 (fun _ => 0) w1 = .ok (0, mem1) w2 ∧ ∀ faults,
    (mpiReadRecords exEnv 2 b!"d" exR3 1 4096 1 (fun r => 2 - r) (fun _ => 1000) mem).Withstands { w2 with faults := faults }
      (fun x w' => w'.fs.node = w2.fs.node ∧
        ((∀ r, r < 2 → x.1 r = 0 ∧
          (∀ f ∈ exR3.fields, ∀ i, i < 2 - r →
            ((Content.fresh [2, 3]).put 1 (allOf exEnv.m exR3 1 (fun _ => 3) (fun _ => 1000) (fun _ _ => 0) f)).rows
              (1 + rowsBefore (fun r => 2 - r) r + i) = some (fieldOf exEnv.m exR3 1000 (x.2 r) i f)) ∧
          (∀ y : Int, y < 1000 ∨ 1000 + (((2 - r) * exR3.itemsize : Nat) : Int) ≤ y → x.2 r y = mem r y)) ∨
        (∀ r, r < 2 → x.1 r = -1)))
      (fun fs => fs.node = w2.fs.node) := by
  obtain ⟨w1, e1, nf1, _, d1, _⟩ := C65_create exEnv b!"d" exR3 [2, 3] exTreeWorld exFmt (by decide) rfl
    exTree_ok (by decide) (by decide) exR3_makable exR3_apart
  have hw := write_fields (A := fun _ => Content.fresh [2, 3]) (p := 1) (size := fun _ => 3) (buf := fun _ => 1000) (n := 1)
    (act := asOne (writeField exEnv b!"d" exR3 (1 : Nat) 3 1000))
    (fun f mem w hnf hf hsh h hp => writeField_one (mem := mem) exR3_complete hf hsh hnf (by decide) h (by rw [one_share] at hp; exact hp))
    exR3.fields (fun _ _ => 0) w1 nf1 (fun f hf => ⟨hf, exR3_sharable f hf, d1 f hf, by
      show 1 + rowsBefore (fun _ => 3) 1 ≤ 5
      decide⟩) exR3_apart (columns_apart exR3_complete)
  obtain ⟨⟨rc, mem1⟩, w2, e2, h1, h2, h3, _⟩ := alone_eachField exR3.fields (fun _ => 0) w1 hw
  obtain rfl : rc = 0 := h1 0 (by omega)
  have hchk : ((do let _ ← createRecords exEnv b!"d" exR3 .wplus [2, 3]
                   writeRecords exEnv b!"d" exR3 1 3 1000 (fun _ => 0) : M _) exTreeWorld).fs?.map (fun fs => exR3.fields.all fun f =>
      (fs.node (fileKey (fieldPath b!"d" f) .header) = some (.file ((headerText (exR3Hdr f)).take 1000)) : Bool)) = some true := by
    decide +kernel
  have e3 : (do let _ ← createRecords exEnv b!"d" exR3 .wplus [2, 3]
                writeRecords exEnv b!"d" exR3 1 3 1000 (fun _ => 0) : M _) exTreeWorld = .ok (0, mem1) w2 := by
    simp only [bind, M.bind, e1]
    exact e2
  rw [e3] at hchk
  simp only [Res.fs?, Option.map_some, Option.some.injEq, List.all_eq_true, decide_eq_true_eq] at hchk
  refine ⟨w1, mem1, w2, e1, e2, fun faults => ?_⟩
  exact C90_read_partial exEnv b!"d" exR3 2 1 4096 1 (fun r => 2 - r) (fun _ => 1000) mem { w2 with faults := faults }
    (fun f => (Content.fresh [2, 3]).put 1 (allOf exEnv.m exR3 1 (fun _ => 3) (fun _ => 1000) (fun _ _ => 0) f)) exR3_complete (by decide)
    (by decide) (by decide) (by decide) (by decide)
    (fun f hf => ⟨exR3_sharable f hf, h3 f hf, ⟨exR3Hdr f, exR3Hdr_good f hf, 1000, hchk f hf⟩, by
      show 1 + rowsBefore (fun r => 2 - r) 2 ≤ 5
      decide, fun q hq1 hq2 => by
      have hq2 : q < 1 + 3 := hq2
      simp only [Content.put, allOf_length]
      rw [if_pos ⟨hq1, hq2⟩]
      rfl⟩)

/-- The blocks of `exR3` are made; then three processes extend them by two files while anything fails. -/
example : ∃ w1, createRecords exEnv b!"d" exR3 .wplus [2, 3] exTreeWorld = .ok 0 w1 ∧ ∀ faults, NoSilent faults →
    (mpiCreateRecords exEnv 3 b!"d" exR3 .aplus [4, 1]).Withstands { w1 with faults := faults }
      (fun c w' => SameOutsideAll b!"d" exR3.fields w1.fs w'.fs ∧
        ((∀ r, r < 3 → c r = 0) ∧ (∀ f ∈ exR3.fields, OnDisk exEnv (fieldKind exEnv f) w'.fs (fieldPath b!"d" f)
          ((Content.fresh [2, 3]).grown [4, 1])) ∨
        (∀ r, r < 3 → c r = -1) ∧ ExtensionCut exEnv b!"d" (fun _ => Content.fresh [2, 3]) [4, 1] exR3.fields w'.fs))
      (fun fs => SameOutsideAll b!"d" exR3.fields w1.fs fs ∧
        ExtensionCut exEnv b!"d" (fun _ => Content.fresh [2, 3]) [4, 1] exR3.fields fs) := by
  obtain ⟨w1, e1, _, _, d1, _⟩ := C65_create exEnv b!"d" exR3 [2, 3] exTreeWorld exFmt (by decide) rfl
    exTree_ok (by decide) (by decide) exR3_makable exR3_apart
  have hchk : (createRecords exEnv b!"d" exR3 .wplus [2, 3] exTreeWorld).fs?.map (fun fs => exR3.fields.all fun f =>
      (fs.node (fileKey (fieldPath b!"d" f) .header) = some (.file ((headerText (exR3Hdr f)).take 1000)) : Bool)) = some true := by
    decide +kernel
  rw [e1] at hchk
  simp only [Res.fs?, Option.map_some, Option.some.injEq, List.all_eq_true, decide_eq_true_eq] at hchk
  refine ⟨w1, e1, fun faults hns => ?_⟩
  exact C90_extend_partial exEnv b!"d" exR3 3 [4, 1] { w1 with faults := faults } (fun _ => Content.fresh [2, 3]) (by decide) (by decide) hns
    (fun f hf => ⟨exR3_sharable f hf, d1 f hf, ⟨exR3Hdr f, exR3Hdr_good f hf, 1000, hchk f hf⟩, by
      simp only [exR3, List.mem_cons, List.not_mem_nil, or_false] at hf
      rcases hf with rfl | rfl <;> exact ⟨by decide, by decide, by decide⟩⟩) exR3_apart

/-- The blocks of `exR3` have five rows; three processes write or read from row 6 on. -/
example : ∃ w1, createRecords exEnv b!"d" exR3 .wplus [2, 3] exTreeWorld = .ok 0 w1 ∧ ∀ (write : Bool) (faults : Nat → Fault) (mem : Nat → Mem),
    (if write then mpiWriteRecords exEnv 3 b!"d" exR3 2 100 6 (fun _ => 1) (fun r => 1000 * r) mem
      else mpiReadRecords exEnv 3 b!"d" exR3 2 100 6 (fun _ => 1) (fun r => 1000 * r) mem).Withstands { w1 with faults := faults }
      (fun x w' => w'.fs.node = w1.fs.node ∧ ∀ r, r < 3 → x.1 r = -1 ∧ x.2 r = mem r) (fun fs => fs.node = w1.fs.node) := by
  obtain ⟨w1, e1, _, _, d1, _⟩ := C65_create exEnv b!"d" exR3 [2, 3] exTreeWorld exFmt (by decide) rfl
    exTree_ok (by decide) (by decide) exR3_makable exR3_apart
  have hchk : (createRecords exEnv b!"d" exR3 .wplus [2, 3] exTreeWorld).fs?.map (fun fs => exR3.fields.all fun f =>
      (fs.node (fileKey (fieldPath b!"d" f) .header) = some (.file ((headerText (exR3Hdr f)).take 1000)) : Bool)) = some true := by
    decide +kernel
  rw [e1] at hchk
  simp only [Res.fs?, Option.map_some, Option.some.injEq, List.all_eq_true, decide_eq_true_eq] at hchk
  refine ⟨w1, e1, fun write faults mem => ?_⟩
  have hmem : exR3.fields.head (by decide) ∈ exR3.fields := List.head_mem _
  exact C90_outside exEnv write b!"d" exR3 3 2 100 6 (fun _ => 1) (fun r => 1000 * r) mem { w1 with faults := faults } (Content.fresh [2, 3])
    (exR3.fields.head (by decide)) exR3.fields.tail (exR3Hdr (exR3.fields.head (by decide))) exR3_complete (by decide) (by decide) (by decide) rfl
    (exR3_sharable _ hmem) (d1 _ hmem) ⟨exR3Hdr_good _ hmem, 1000, hchk _ hmem⟩ (by decide) (by decide)

end Verif
