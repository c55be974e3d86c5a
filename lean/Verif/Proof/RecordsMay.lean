import Verif.Spec.RecordsMay
import Verif.Props.SharedMay
import Verif.Props.RecordsAll
import Verif.Props.Cut
import Verif.Proof.CopyMay
/-!
# Records of several processes while file operations fail
-/

set_option autoImplicit false

namespace Verif

open Spec

variable {env : Env} {K : Kind} {A : Content} {w : World} {n : Nat} {bf : CStr} {rt : RType} {f : RField} {size : Nat → Nat}
  {buf : Nat → Int} {mem : Nat → Mem} {p : Nat} {H : Nat → Block} {S : Durable}

/-! ## Disk states -/

theorem Spec.OnDisk.forget {fs : FS} {base : CStr} (h : OnDisk env K fs base A) (p k : Nat) : OnDisk env K fs base (A.forget p k) := by
  obtain ⟨h1, h2, b, h3, h4, h5⟩ := h
  refine ⟨h1, h2, b, h3, h4, h5.ok, h5.kind, h5.size, h5.nfile, h5.savable, h5.attrs, h5.pending, h5.tame, h5.saved, h5.header,
    h5.dir, h5.noOld, h5.noDirs, h5.data, fun r bytes hr => ?_⟩
  simp only [Content.forget] at hr
  split at hr
  · cases hr
  · exact h5.rows r bytes hr

theorem Spec.HoldsD.forget {bb : Block} {fs : FS} (h : HoldsD env K bb fs S) (p k : Nat) :
    HoldsD env K bb fs { S with now := S.now.forget p k } := by
  refine ⟨h.ok, h.kind, h.size, h.nfile, h.savable, h.attrs, h.pending, h.tame, h.saved, h.clean, h.header, h.dir, h.noOld, h.noDirs, h.data,
    fun r bytes hr => ?_⟩
  simp only [Content.forget] at hr
  split at hr
  · cases hr
  · exact h.rows r bytes hr

/-- A directory whose header and attributes are stored is a block on disk. -/
theorem onDisk_of_holdsD {bb : Block} {fs : FS} (h : HoldsD env K bb fs S) (hst : S.stored = some (S.now.size, S.now.nfile))
    (hk : S.attrsKnown = true) (hw : S.whole = true) (hp : S.now.pending = false) :
    OnDisk env K fs bb.basename { S.now with attrs := S.now.saved } := by
  obtain ⟨b, w', _, g1, _, g3, g4, g5⟩ := C70_recover_partial env K bb ⟨fs, noFaults, 0⟩ S _ _ h rfl hst hk
  have hh := g5.holds rfl hw
  rw [g1] at hh
  refine ⟨hp, rfl, b, g3, g4, ?_⟩
  have e : S.recovered S.now.size S.now.nfile = { S.now with attrs := S.now.saved } := by
    unfold Durable.recovered
    cases hn : S.now with
    | mk sz nf rows attrs saved pending =>
      rw [hn] at hp
      simp only at hp
      subst hp
      congr 1
      funext r
      by_cases hr : r < sz
      · rw [if_pos hr]
      · rw [if_neg hr]
        cases hx : rows r with
        | none => exact hx.symm
        | some bytes =>
          have := (h.rows r bytes (by rw [hn]; exact hx)).1
          rw [hn] at this
          exact absurd this hr
  rw [← e]
  exact hh

theorem Spec.HeaderCut.renamed {fs : FS} {a base : CStr} {hb : Block} (h : HeaderCut fs base hb) (hr : resolve a = resolve base) :
    HeaderCut fs a hb := by
  obtain ⟨h1, k, h2⟩ := h
  exact ⟨h1, k, by rw [fileKey_eq, hr, ← fileKey_eq]; exact h2⟩

/-! ## Phases -/

/-- All processes make their arrays. -/
theorem view_all_may {wd nm : Nat} (hg : GoodField env.m rt f wd nm) (hs : ∀ r, r < n → size r * rt.itemsize < 9223372036854775808)
    {Q : (Nat → Arr) → World → Prop} {R : FS → Prop}
    (h : ∀ (arr : Nat → Arr) (dom : List Key), (∀ r, r < n → arr r = viewArr env.m rt f (size r) (buf r)) →
      Q arr ⟨⟨w.fs.node, dom⟩, w.faults, w.clock⟩) (hR : ∀ dom, R ⟨w.fs.node, dom⟩) :
    (Phases.together n fun r => Prog.lift (viewField env.m rt f (size r) (buf r))).Withstands w Q R := by
  apply Phases.withstands_together (P' := fun r => Prog.ret (viewArr env.m rt f (size r) (buf r)))
  · intro r hr
    rw [hg.view _ _ (hs r hr)]
    rfl
  · intro F hF
    refine ⟨0, fun es s hr => ?_⟩
    have hs : es = [] ∧ s = startAll (fun r => .ret (viewArr env.m rt f (size r) (buf r))) w.fs.node := by
      cases hr with
      | nil => exact ⟨rfl, rfl⟩
      | cons h _ =>
        cases h with
        | file r op k t a nd hr ht he => cases ht
        | coll c hne hall =>
          obtain ⟨r, hr⟩ := List.exists_mem_of_ne_nil _ hne
          exact absurd (hall r hr).2 (by simp [startAll, Prog.WaitsAt])
    obtain ⟨rfl, rfl⟩ := hs
    exact ⟨Nat.le_refl _, hR, fun _ => ⟨_, fun r _ => rfl, fun out dom ho => h out dom ho⟩⟩

/-- A collective open while file operations fail. -/
theorem open_mayAll {base : CStr} {hb : Block} (h : OnDisk env K w.fs base A) (hc : HeaderCut w.fs base hb) (hz : (0 : Byte) ∉ base)
    (hn : 0 < n ∧ n < 2147483648) :
    wpc (mpiOpen env base) w
      (fun x w' => w'.fs = w.fs ∧ w'.faults = w.faults ∧ (x = (-1, none) ∨ ∃ b a, x = (0, some (mpiBroadcast env b)) ∧ b.basename = base ∧
        b.dirty = false ∧ b.attrset.dirty = false ∧ HoldsAllD env K n (mpiBroadcast env b) w.fs (Durable.opened { A with attrs := a })))
      (fun w' => w'.fs = w.fs) := by
  unfold mpiOpen
  rw [wpc_bind]
  apply wpc_mono (C75_content_partial env K A base w hb h hc)
  · rintro x w' ⟨e1, e2, (rfl | ⟨b, rfl, h1, h2, h3⟩)⟩
    · exact ⟨e1, e2, .inl rfl⟩
    · have key : ∀ a, Holds env K b w.fs { A with attrs := a } → b.attrset.dirty = false ∧
          HoldsAllD env K n (mpiBroadcast env b) w.fs (Durable.opened { A with attrs := a }) := by
        intro a ha
        exact ⟨ha.pending.trans h.1, opened_holdsAllD (opened_holdsD ha h2 h.1) h2 (by rw [h1]; exact hz) hn⟩
      refine ⟨e1, e2, .inr ?_⟩
      rcases h3 with h3 | ⟨h3, _⟩
      · exact ⟨b, A.attrs, rfl, h1, h2, key _ h3⟩
      · exact ⟨b, _, rfl, h1, h2, key _ h3⟩
  · intro w' e
    exact e

/-- A collective close while file operations fail, of handles in which no attributes are pending. -/
theorem close_mayAll (h : HoldsAllD env K n H w.fs S) (hns : NoSilent w.faults) (hp : S.now.pending = false) :
    wpc (mpiClose env n H) w
      (fun rc w' => w'.faults = w.faults ∧ SameOutside (H 0).basename w.fs w'.fs ∧ ∃ b, b.basename = (H 0).basename ∧
        (rc = 0 ∧ HoldsD env K b w'.fs { S with stored := some (S.now.size, S.now.nfile) } ∨
          rc ≠ 0 ∧ HoldsD env K b w'.fs { S with stored := none }))
      (fun w' => SameOutside (H 0).basename w.fs w'.fs ∧ ∃ b, b.basename = (H 0).basename ∧ HoldsD env K b w'.fs { S with stored := none }) := by
  have hf := flush_mayAll h hns
  unfold mpiClose
  rw [wpc_bind]
  unfold runMOp at hf
  change Phases.Withstands (.root (mpiFlush env n H) _) w _ _ at hf
  simp only [Phases.Withstands] at hf
  unfold wpc
  cases e : mpiFlush env n H w with
  | ok b w' =>
    rw [e] at hf
    dsimp only at hf ⊢
    obtain ⟨g1, g2, g3, S', g4, hn0, hn1, bb, g5, _, _, _, g6⟩ := hf
    dsimp only at g2 g4 g5 g6
    have hbb : bb.basename = (H 0).basename := (g6 0 hn0).shape.base.symm.trans g2
    refine ⟨g1, g3, bb, hbb, ?_⟩
    cases g4 with
    | done _ _ ha =>
      refine .inl ⟨ha 0 hn0, ?_⟩
      have e : S.nextAll env K n .flush = { S with stored := some (S.now.size, S.now.nfile) } := by
        simp only [Durable.nextAll, Durable.flushed, hp, Bool.or_false]
        simp
      rw [← e]
      exact g5
    | flush _ ha =>
      obtain ⟨c, hc, ha⟩ := ha
      exact .inr ⟨by rw [show b.1 = c from ha 0 hn0]; exact hc, g5⟩
    | attrs _ _ hp' => rw [hp] at hp'; cases hp'
  | crash w' =>
    rw [e] at hf
    obtain ⟨g1, S', b, g2, g3, g4⟩ := hf
    refine ⟨g1, b, g3, ?_⟩
    cases g2 with
    | flush => exact g4
    | attrs hp' => rw [hp] at hp'; cases hp'
  | ub => rw [e] at hf; exact hf
  | hang => rw [e] at hf; exact hf

/-- What is known about a computation is known about its first part. -/
theorem Phases.withstands_of_bind {α β : Type} {p : Phases α} {f : α → Phases β} {w : World} {Q : β → World → Prop} {R : FS → Prop}
    (h : (p >>= f).Withstands w Q R) : p.Withstands w (fun a w' => (f a).Withstands w' Q R) R := by
  change (p.bind f).Withstands w Q R at h
  induction p generalizing w with
  | ret a => exact h
  | ub => exact h
  | hang => exact h
  | root m k ih =>
    simp only [Phases.Withstands, Phases.bind] at h ⊢
    cases e : m w with
    | ok b w' => rw [e] at h; exact ih b h
    | _ => rw [e] at h; exact h
  | all n P k ih =>
    intro F hF
    obtain ⟨B, hB⟩ := h F hF
    refine ⟨B, fun es s hrun => ?_⟩
    obtain ⟨h1, h2, h3⟩ := hB es s hrun
    refine ⟨h1, h2, fun hs => ?_⟩
    obtain ⟨h4, h5⟩ := h3 hs
    exact ⟨h4, fun out ho => ih out (h5 out ho)⟩

/-- A condition on the code that is the same on all processes. -/
theorem together0_may {α : Type} {c : Nat → Int} {good bad : Phases α} {Q : α → World → Prop} {R : FS → Prop} (hn : 0 < n)
    (h : (∀ r, r < n → c r = 0) ∧ good.Withstands w Q R ∨ (∀ r, r < n → c r = -1) ∧ bad.Withstands w Q R) :
    (together0 n c good bad).Withstands w Q R := by
  unfold together0
  rcases h with ⟨hc, h⟩ | ⟨hc, h⟩
  · rw [if_pos (by
      rw [List.all_eq_true]
      intro r hr
      rw [hc r (List.mem_range.mp hr)]
      rfl)]
    exact h
  · rw [if_neg (by
      rw [List.all_eq_true]
      intro hall
      have := hall 0 (List.mem_range.mpr hn)
      rw [hc 0 hn] at this
      exact absurd this (by decide)), if_pos (by
      rw [List.all_eq_true]
      intro r hr
      rw [hc r (List.mem_range.mp hr)]
      rfl)]
    exact h

/-! ## One field -/

/-- What is known about a field after all processes wrote it, or tried. -/
structure FieldMay (env : Env) (bf : CStr) (rt : RType) (n : Nat) (size : Nat → Nat) (buf : Nat → Int) (mem : Nat → Mem)
    (f : RField) (A A' : Content) (p : Nat) (w : World) (x : (Nat → Int) × (Nat → Mem)) (w' : World) : Prop where
  faults : w'.faults = w.faults
  out : SameOutside (fieldPath bf f) w.fs w'.fs
  res : (∀ r, r < n → x.1 r = 0) ∧ OnDisk env (fieldKind env f) w'.fs (fieldPath bf f) A' ∧
      (∀ r, r < n → ∀ y, ¬ InColumn env.m rt (buf r) (size r) f y → x.2 r y = mem r y) ∨
    (∀ r, r < n → x.1 r = -1) ∧ Unfinished env (fieldKind env f) w'.fs (fieldPath bf f) A p (rowsBefore size n)

/-- What is known about a field when the processes were killed while they wrote it. -/
def FieldKilled (env : Env) (bf : CStr) (n : Nat) (size : Nat → Nat) (f : RField) (A : Content) (p : Nat) (fs0 fs : FS) : Prop :=
  SameOutside (fieldPath bf f) fs0 fs ∧ Unfinished env (fieldKind env f) fs (fieldPath bf f) A p (rowsBefore size n)

section
variable {conc : Int} {thr : Nat}

/-- **One field written while file operations fail.** -/
theorem write_field_may {hb : Block} (hc : Complete env.m rt) (hf : f ∈ rt.fields) (hsh : Sharable env bf f) (hbf : bf ≠ [])
    (hn : 0 < n ∧ n < 2147483648) (hns : NoSilent w.faults) (hs : ∀ r, r < n → size r * rt.itemsize < 9223372036854775808)
    (hN : rowsBefore size n < 2147483648) (hconc : conc < 2147483648)
    (h : OnDisk env (fieldKind env f) w.fs (fieldPath bf f) A) (hcut : HeaderCut w.fs (fieldPath bf f) hb)
    (hp : p + rowsBefore size n ≤ A.size) :
    (mpiXferField env true n bf rt conc thr p size buf f mem).Withstands w
      (FieldMay env bf rt n size buf mem f A (A.put p (allOf env.m rt n size buf mem f)) p w)
      (FieldKilled env bf n size f A p w.fs) := by
  obtain ⟨name, hname⟩ := Option.isSome_iff_exists.mp hsh.name
  obtain ⟨hpath, hz, hlen⟩ := hsh.path hname
  have hmeta := h.notMeta
  have hg := goodField hc hf hsh.memb hsh.item
  have hsame : ∀ dom, OnDisk env (fieldKind env f) ⟨w.fs.node, dom⟩ (fieldPath bf f) A := fun dom => h.congr rfl fun _ => rfl
  unfold mpiXferField
  apply Phases.withstands_bind
  refine view_all_may hg hs ?_ (fun dom => ⟨fun _ _ => rfl, .inl ((hsame dom).forget _ _)⟩)
  intro arr dom harr
  rw [hname]
  dsimp only
  have hres := resolve_mpiPath bf name hbf
  have hres' : resolve (mpiPath bf name) = resolve (fieldPath bf f) := by rw [hpath]; exact hres
  apply Phases.withstands_bind
  apply Phases.withstands_alone
  unfold mpiOpenBlock
  apply wpc_mono (open_mayAll (n := n) (w := ⟨⟨w.fs.node, dom⟩, w.faults, w.clock⟩)
    ((hsame dom).renamed hres' hlen (isMeta_mpiPath bf name)) ((show HeaderCut _ _ hb from hcut).renamed hres') hz hn)
  case hc =>
    intro w' e
    rw [e]
    exact ⟨fun _ _ => rfl, .inl ((hsame dom).forget _ _)⟩
  rintro x w1 ⟨e1, f1, (rfl | ⟨b, a, rfl, hb1, hb2, hb3, h1⟩)⟩
  · refine Phases.withstands_pure ⟨f1, by rw [e1]; exact fun _ _ => rfl, .inr ⟨fun _ _ => rfl, .inl ?_⟩⟩
    rw [e1]
    exact (hsame dom).forget _ _
  have hK : (fieldKind env f).nm = f.nmemb.toNat := rfl
  have hsz : ∀ r, r < n → rowsOf (fieldKind env f) arr r = size r := by
    intro r hr
    unfold rowsOf
    rw [harr r hr]
    exact (view_share hg _ _ (hs r hr) hK).1
  have hconv : ∀ r, r < n → ∀ e, toBlock env (fieldKind env f) (arr r) (mem r) (itemsize env.m f.dtype).toNat e =
      some (peek (mem r) (elemAddr (arr r) e) (itemsize env.m f.dtype).toNat) := by
    intro r hr e
    unfold toBlock
    rw [harr r hr]
    exact convElem_same _ _ _ _
  have hgath : gathered env (fieldKind env f) n arr mem (fun _ => (itemsize env.m f.dtype).toNat) = allOf env.m rt n size buf mem f := by
    unfold gathered allOf
    apply flatMap_congr'
    intro r hr
    have hr := List.mem_range.mp hr
    rw [hsz r hr]
    apply List.map_congr_left
    intro i hi
    unfold arrayRow
    rw [← hg.row (size r) (buf r) (mem r) i (List.mem_range.mp hi)]
    simp only [hconv r hr, Option.getD_some]
    rw [harr r hr]
    rfl
  have hbf' : rowsBefore (rowsOf (fieldKind env f) arr) n = rowsBefore size n := rowsBefore_congr hsz
  have hb0 : (mpiBroadcast env b 0).basename = mpiPath bf name := by
    unfold mpiBroadcast
    rw [if_pos rfl, hb1]
  -- states on disk, with the two names of the block
  have disk : ∀ (b' : Block) (fs : FS) (S : Durable), b'.basename = mpiPath bf name → HoldsD env (fieldKind env f) b' fs S →
      S.stored = some (S.now.size, S.now.nfile) → S.attrsKnown = true → S.whole = true → S.now.pending = false →
      OnDisk env (fieldKind env f) fs (fieldPath bf f) { S.now with attrs := S.now.saved } := by
    intro b' fs S g1 g2 g3 g4 g5 g6
    have := onDisk_of_holdsD g2 g3 g4 g5 g6
    rw [g1] at this
    exact this.renamed hres'.symm (by rw [hpath]; exact mpiPath_length hlen) hmeta
  have hsaved : A.saved = A.attrs := h.2.1
  have hpend : A.pending = false := h.1
  have forgot : ∀ (b' : Block) (fs : FS), b'.basename = mpiPath bf name →
      HoldsD env (fieldKind env f) b' fs { Durable.opened { A with attrs := a } with
        now := Content.forget { A with attrs := a } p (rowsBefore size n) } →
      Unfinished env (fieldKind env f) fs (fieldPath bf f) A p (rowsBefore size n) := by
    intro b' fs g1 g2
    left
    have := disk b' fs _ g1 g2 rfl rfl rfl hpend
    have e : ({ Content.forget { A with attrs := a } p (rowsBefore size n) with attrs := A.saved } : Content) =
        A.forget p (rowsBefore size n) := by
      unfold Content.forget
      rw [hsaved]
    rw [← e]
    exact this
  have hw := write_mayAll (p := p) (arr := arr) (mem := mem) (sw := fun _ => (itemsize env.m f.dtype).toNat) (w := w1)
    (by rw [e1]; exact h1) conc thr (by
      refine ⟨by rw [hbf']; exact hp, by rw [hbf']; exact hN, hconc, fun r hr => ⟨?_, fun _ => ?_, fun e _ => ?_⟩⟩
      · rw [harr r hr]; exact (view_share hg _ _ (hs r hr) hK).2
      · rw [harr r hr]; exact hg.disjoint _ _
      · rw [hconv r hr]; rfl)
  apply Phases.withstands_bind
  refine Phases.withstands_mono (Phases.withstands_of_bind hw) ?_ ?_
  · intro out w2 d
    obtain ⟨d1, d2, d3, S', d4, d5⟩ := d
    dsimp only at d2 d4 d5
    rw [hb0] at d3
    have o2 := d3.renamed hres'
    rw [e1] at o2
    have o2 : SameOutside (fieldPath bf f) w.fs w2.fs := fun k hk => o2 k hk
    have hpd : S'.now.pending = false := by cases d4 <;> exact hpend
    -- a damaged header
    have torn : ∀ (b' : Block) (fs : FS), b'.basename = mpiPath bf name → HoldsD env (fieldKind env f) b' fs { S' with stored := none } →
        Unfinished env (fieldKind env f) fs (fieldPath bf f) A p (rowsBefore size n) := by
      intro b' fs g1 g2
      refine .inr ⟨b', a, by rw [g1]; exact hres', ?_⟩
      have := g2.forget p (rowsBefore size n)
      have e : ({ S' with stored := none, now := S'.now.forget p (rowsBefore size n) } : Durable) =
          ⟨{ A.forget p (rowsBefore size n) with attrs := a }, none, true, true⟩ := by
        cases d4 with
        | done _ _ _ =>
          simp only [Durable.nextAll, Content.nextAll, Durable.opened, Content.forget, hbf']
          congr 2
          funext r
          by_cases hr : p ≤ r ∧ r < p + rowsBefore size n
          · rw [if_pos hr, if_pos hr]
          · rw [if_neg hr, if_neg hr, if_neg hr]
        | write _ _ _ _ _ _ _ _ =>
          simp only [Durable.opened, Content.forget, hbf']
          congr 2
          funext r
          by_cases hr : p ≤ r ∧ r < p + rowsBefore size n
          · rw [if_pos hr, if_pos hr]
          · rw [if_neg hr, if_neg hr]
      rw [← e]
      exact this
    apply Phases.withstands_bind
    apply Phases.withstands_alone
    apply wpc_mono (close_mayAll d5 (by rw [d1, f1]; exact hns) hpd)
    · rintro rc w3 ⟨k1, k2, b3, k3, k4⟩
      rw [d2, hb0] at k3
      rw [d2, hb0] at k2
      have o3 := o2.trans (k2.renamed hres')
      apply Phases.withstands_pure
      refine ⟨k1.trans (d1.trans f1), o3, ?_⟩
      cases d4 with
      | done _ _ ha =>
        rcases k4 with ⟨rfl, k4⟩ | ⟨k5, k4⟩
        · refine .inl ⟨fun r hr => ?_, ?_, fun r hr y hy => ?_⟩
          · have := (ha r hr).1
            dsimp only at this ⊢
            rw [this]
            rfl
          · have := disk b3 w3.fs _ k3 k4 rfl rfl rfl hpend
            have e : ({ A.nextAll env (fieldKind env f) n (.write p arr mem (fun _ => (itemsize env.m f.dtype).toNat) conc thr) with
                attrs := A.saved } : Content) = A.put p (allOf env.m rt n size buf mem f) := by
              unfold Content.nextAll Content.put
              dsimp only
              rw [hgath, hbf', allOf_length, hsaved]
            rw [← e]
            exact this
          · apply (ha r hr).2.frame
            intro hin
            apply hy
            rw [harr r hr, hg.view_size] at hin
            exact hg.inElems _ _ _ hin
        · refine .inr ⟨fun r hr => ?_, ?_⟩
          · dsimp only
            rw [if_pos (.inr k5)]
          · exact torn b3 w3.fs k3 k4
      | write _ _ _ _ _ _ _ hall =>
        obtain ⟨c, hc0, hall⟩ := hall
        refine .inr ⟨fun r hr => ?_, ?_⟩
        · have := hall r hr
          dsimp only at this ⊢
          rw [if_pos (.inl (by rw [this]; exact hc0))]
        · rcases k4 with ⟨rfl, k4⟩ | ⟨k5, k4⟩
          · rw [hbf'] at k4
            exact forgot b3 w3.fs k3 k4
          · exact torn b3 w3.fs k3 k4
    · rintro w3 ⟨k2, b3, k3, k4⟩
      rw [d2, hb0] at k2 k3
      exact ⟨o2.trans (k2.renamed hres'), torn b3 w3.fs k3 k4⟩
  · rintro fs ⟨k1, S', b', k2, k3, k4⟩
    rw [hb0] at k1 k3
    have o1 := k1.renamed hres'
    rw [e1] at o1
    refine ⟨fun k hk => o1 k hk, ?_⟩
    cases k2 with
    | write =>
      rw [hbf'] at k4
      exact forgot b' fs k3 k4

/-- Closing handles in which nothing is pending does nothing. -/
theorem close_clean (h : ∀ r, r < n → (H r).dirty = false) (ha : (H 0).attrset.dirty = false) : mpiClose env n H = pure 0 := by
  have hd : (reducedRoot n H).dirty = false := by
    show (List.range n).any _ = false
    rw [List.any_eq_false]
    intro r hr
    rw [h r (List.mem_range.mp hr)]
    decide
  have hf : blockFlush env (reducedRoot n H) = pure (0, reducedRoot n H) := by
    unfold blockFlush flushHeader
    rw [hd]
    show (if (reducedRoot n H).attrset.dirty = true then _ else _) = _
    rw [if_neg (by rw [show (reducedRoot n H).attrset.dirty = false from ha]; decide)]
  unfold mpiClose mpiFlush
  rw [hf]
  rfl

/-- What is known about a field after all processes read it, or tried. -/
structure FieldReadMay (env : Env) (rt : RType) (n : Nat) (size : Nat → Nat) (buf : Nat → Int) (mem : Nat → Mem)
    (f : RField) (A : Content) (p : Nat) (w : World) (x : (Nat → Int) × (Nat → Mem)) (w' : World) : Prop where
  faults : w'.faults = w.faults
  disk : w'.fs.node = w.fs.node
  res : (∀ r, r < n → x.1 r = 0) ∧
      (∀ r, r < n → ∀ i, i < size r → A.rows (p + rowsBefore size r + i) = some (fieldOf env.m rt (buf r) (x.2 r) i f)) ∧
      (∀ r, r < n → ∀ y, ¬ InColumn env.m rt (buf r) (size r) f y → x.2 r y = mem r y) ∨
    (∀ r, r < n → x.1 r = -1)

/-- **One field read while file operations fail.** -/
theorem read_field_may {hb : Block} (hc : Complete env.m rt) (hf : f ∈ rt.fields) (hsh : Sharable env bf f) (hbf : bf ≠ [])
    (hn : 0 < n ∧ n < 2147483648) (hs : ∀ r, r < n → size r * rt.itemsize < 9223372036854775808)
    (hN : rowsBefore size n < 2147483648) (hconc : conc < 2147483648)
    (h : OnDisk env (fieldKind env f) w.fs (fieldPath bf f) A) (hcut : HeaderCut w.fs (fieldPath bf f) hb)
    (hp : p + rowsBefore size n ≤ A.size) (hrows : ∀ q, p ≤ q → q < p + rowsBefore size n → (A.rows q).isSome = true) :
    (mpiXferField env false n bf rt conc thr p size buf f mem).Withstands w
      (FieldReadMay env rt n size buf mem f A p w) (fun fs => fs.node = w.fs.node) := by
  obtain ⟨name, hname⟩ := Option.isSome_iff_exists.mp hsh.name
  obtain ⟨hpath, hz, hlen⟩ := hsh.path hname
  have hg := goodField hc hf hsh.memb hsh.item
  unfold mpiXferField
  apply Phases.withstands_bind
  refine view_all_may hg hs ?_ (fun dom => rfl)
  intro arr dom harr
  rw [hname]
  dsimp only
  have hres := resolve_mpiPath bf name hbf
  have hres' : resolve (mpiPath bf name) = resolve (fieldPath bf f) := by rw [hpath]; exact hres
  apply Phases.withstands_bind
  apply Phases.withstands_alone
  unfold mpiOpenBlock
  have hsame : OnDisk env (fieldKind env f) ⟨w.fs.node, dom⟩ (fieldPath bf f) A := h.congr rfl fun _ => rfl
  apply wpc_mono (open_mayAll (n := n) (w := ⟨⟨w.fs.node, dom⟩, w.faults, w.clock⟩)
    (hsame.renamed hres' hlen (isMeta_mpiPath bf name)) ((show HeaderCut _ _ hb from hcut).renamed hres') hz hn)
  case hc =>
    intro w' e
    rw [e]
  rintro x w1 ⟨e1, f1, (rfl | ⟨b, a, rfl, hb1, hb2, hb3, h1⟩)⟩
  · exact Phases.withstands_pure ⟨f1, by rw [e1], .inr fun _ _ => rfl⟩
  have hK : (fieldKind env f).nm = f.nmemb.toNat := rfl
  have hsz : ∀ r, r < n → rowsOf (fieldKind env f) arr r = size r := by
    intro r hr
    unfold rowsOf
    rw [harr r hr]
    exact (view_share hg _ _ (hs r hr) hK).1
  have hconv : ∀ r, r < n → ∀ bytes j, fromBlock env (fieldKind env f) (arr r) bytes j =
      some ((bytes.drop (j * (itemsize env.m f.dtype).toNat)).take (itemsize env.m f.dtype).toNat) := by
    intro r hr bytes j
    unfold fromBlock
    rw [harr r hr]
    exact convElem_same _ _ _ _
  have hb : ∀ r, r ≤ n → rowsBefore (rowsOf (fieldKind env f) arr) r = rowsBefore size r := fun r hr =>
    rowsBefore_congr fun q hq => hsz q (by omega)
  have hin : ∀ r, r < n → ∀ i, i < size r → rowsBefore size r + i < rowsBefore size n := by
    intro r hr i hi
    have h1 := rowsBefore_mono size (show r + 1 ≤ n from hr)
    rw [rowsBefore_succ] at h1
    omega
  have hw := read_mayKeeps (p := p) (arr := arr) (mem := mem) (sw := fun _ => (itemsize env.m f.dtype).toNat) (w := w1)
    (by rw [e1]; exact h1) conc thr (by
      refine ⟨⟨by rw [hb n (Nat.le_refl _)]; exact hp, by rw [hb n (Nat.le_refl _)]; exact hN, hconc,
        fun r hr => ⟨?_, ?_, fun _ => ?_, fun i hi => ?_⟩⟩, fun r hr _ bs _ => ⟨bs, ?_⟩⟩
      · rw [harr r hr]; exact (view_share hg _ _ (hs r hr) hK).2
      · rw [harr r hr]; exact hg.disjoint _ _
      · rw [harr r hr]; exact convertible_same _ _ _
      · rw [hsz r hr] at hi
        rw [hb r (by omega)]
        have := hin r hr i hi
        obtain ⟨bytes, hbytes⟩ := Option.isSome_iff_exists.mp (hrows (p + rowsBefore size r + i) (by omega) (by omega))
        exact ⟨bytes, hbytes, fun j _ => by rw [hconv r hr]; rfl⟩
      · rw [harr r hr]
        exact convElem_same _ _ _ _)
  apply Phases.withstands_bind
  refine Phases.withstands_mono (Phases.withstands_of_bind hw) ?_ ?_
  · rintro out w2 ⟨⟨d1, d2, d3, S', d4, d5⟩, d6, d7⟩
    dsimp only at d4 d7
    have hcl : mpiClose env n (fun r => (out r).2.bb) = pure 0 := by
      apply close_clean
      · intro r hr
        rw [d7 r hr]
        unfold mpiBroadcast
        split
        · exact hb2
        · exact hb2
      · rw [d7 0 hn.1]
        unfold mpiBroadcast
        rw [if_pos rfl]
        exact hb3
    apply Phases.withstands_bind
    apply Phases.withstands_alone
    rw [hcl, wpc_pure]
    apply Phases.withstands_pure
    refine ⟨d1.trans f1, d6.trans (by rw [e1]), ?_⟩
    cases d4 with
    | read _ _ _ _ _ _ _ hall =>
      obtain ⟨c, hc0, hall⟩ := hall
      refine .inr fun r hr => ?_
      have := hall r hr
      dsimp only at this ⊢
      rw [if_pos (.inl (by rw [this]; exact hc0))]
    | done _ _ ha =>
      refine .inl ⟨fun r hr => ?_, fun r hr i hi => ?_, fun r hr y hy => ?_⟩
      · have := (ha r hr).1
        dsimp only at this ⊢
        rw [this]
        rfl
      · have ha := (ha r hr).2.1
        dsimp only at ha
        rw [hsz r hr, hb r (by omega)] at ha
        have hq := hin r hr i hi
        obtain ⟨bytes, hbytes⟩ := Option.isSome_iff_exists.mp (hrows (p + rowsBefore size r + i) (by omega) (by omega))
        rw [hbytes]
        congr 1
        rw [← hg.row (size r) (buf r) _ i hi]
        have hlenb : bytes.length = f.nmemb.toNat * (itemsize env.m f.dtype).toNat := by
          obtain ⟨_, _, bb, _, _, hh⟩ := h
          obtain ⟨_, r1, r2⟩ := hh.rows _ _ hbytes
          unfold Stored at r2
          rw [← r1, r2, hh.rowSize]
          rfl
        unfold rowOfElems
        refine (flatN_slices bytes _ _ hlenb).symm.trans ?_
        apply flatN_congr
        intro j hj
        obtain ⟨b', hb', hj'⟩ := ha i hi j hj
        change A.rows _ = _ at hb'
        rw [hbytes] at hb'
        injection hb' with hb'
        subst hb'
        rw [hconv r hr] at hj'
        injection hj' with hj'
        rw [hj', harr r hr]
        rfl
      · apply (ha r hr).2.2
        intro hin
        apply hy
        rw [harr r hr, hg.view_size] at hin
        exact hg.inElems _ _ _ hin
  · rintro fs ⟨_, hnod⟩
    rw [hnod, e1]

/-- What is known about a field's block after all processes extended it, or tried. -/
structure FieldGrowMay (env : Env) (bf : CStr) (n : Nat) (f : RField) (A : Content) (fsize : List Nat) (w : World) (c : Nat → Int)
    (w' : World) : Prop where
  faults : w'.faults = w.faults
  out : SameOutside (fieldPath bf f) w.fs w'.fs
  res : (∀ r, r < n → c r = 0) ∧ OnDisk env (fieldKind env f) w'.fs (fieldPath bf f) (A.grown fsize) ∨
    (∀ r, r < n → c r = -1) ∧ Ungrown env (fieldKind env f) w'.fs (fieldPath bf f) A fsize

/-- **One field's block extended while file operations fail.** -/
theorem grow_field_may {hb : Block} {fsize : List Nat} (hsh : Sharable env bf f) (hbf : bf ≠ []) (hn : 0 < n ∧ n < 2147483648)
    (hns : NoSilent w.faults) (h : OnDisk env (fieldKind env f) w.fs (fieldPath bf f) A) (hcut : HeaderCut w.fs (fieldPath bf f) hb)
    (hl : A.legal env (fieldKind env f) (.grow fsize)) :
    (mpiCreateField env n bf .aplus fsize f).Withstands w (FieldGrowMay env bf n f A fsize w)
      (fun fs => SameOutside (fieldPath bf f) w.fs fs ∧ Ungrown env (fieldKind env f) fs (fieldPath bf f) A fsize) := by
  obtain ⟨name, hname⟩ := Option.isSome_iff_exists.mp hsh.name
  obtain ⟨hpath, hz, hlen⟩ := hsh.path hname
  have hmeta := h.notMeta
  unfold mpiCreateField
  rw [hname]
  dsimp only
  have hres' : resolve (mpiPath bf name) = resolve (fieldPath bf f) := by rw [hpath]; exact resolve_mpiPath bf name hbf
  apply Phases.withstands_bind
  apply Phases.withstands_alone
  unfold mpiOpenBlock
  apply wpc_mono (open_mayAll (n := n) (w := w)
    (h.renamed hres' hlen (isMeta_mpiPath bf name)) (hcut.renamed hres') hz hn)
  case hc =>
    intro w' e
    rw [e]
    exact ⟨fun _ _ => rfl, .inl h⟩
  rintro x w1 ⟨e1, f1, (rfl | ⟨b, a, rfl, hb1, hb2, hb3, h1⟩)⟩
  · refine Phases.withstands_pure ⟨f1, by rw [e1]; exact fun _ _ => rfl, .inr ⟨fun _ _ => rfl, .inl ?_⟩⟩
    rw [e1]
    exact h
  have hsaved : A.saved = A.attrs := h.2.1
  have hpend : A.pending = false := h.1
  have hb0 : (mpiBroadcast env b 0).basename = mpiPath bf name := by
    unfold mpiBroadcast
    rw [if_pos rfl, hb1]
  have disk : ∀ (b' : Block) (fs : FS) (S : Durable), b'.basename = mpiPath bf name → HoldsD env (fieldKind env f) b' fs S →
      S.stored = some (S.now.size, S.now.nfile) → S.attrsKnown = true → S.whole = true → S.now.pending = false →
      OnDisk env (fieldKind env f) fs (fieldPath bf f) { S.now with attrs := S.now.saved } := by
    intro b' fs S g1 g2 g3 g4 g5 g6
    have := onDisk_of_holdsD g2 g3 g4 g5 g6
    rw [g1] at this
    exact this.renamed hres'.symm (by rw [hpath]; exact mpiPath_length hlen) hmeta
  have h1' := h1
  rw [← e1] at h1'
  have hw := grow_mayAll h1' fsize hl
  have hw' : (mpiGrow env n (mpiBroadcast env b) fsize >>= fun x =>
      (pure (fun r => ⟨x.1 r, env.junk, none⟩, x.2) : Phases ((Nat → BAns) × (Nat → Block)))).Withstands w1 _ _ := hw
  apply Phases.withstands_bind
  refine Phases.withstands_mono (Phases.withstands_of_bind hw') ?_ ?_
  · rintro ⟨c, H'⟩ w2 ⟨d1, d2, d3, S', d4, d5⟩
    dsimp only at d2 d4 d5 ⊢
    rw [hb0] at d3
    have o2 := d3.renamed hres'
    rw [e1] at o2
    have hS : ∃ wh, S' = ⟨{ A.grown fsize with attrs := a }, some (A.size, A.nfile), true, wh⟩ ∧
        (wh = true ∧ (∀ r, r < n → c r = 0) ∨ ∃ e : Int, e ≠ 0 ∧ ∀ r, r < n → c r = e) := by
      cases d4 with
      | done _ _ ha => exact ⟨true, rfl, .inl ⟨rfl, ha⟩⟩
      | grow _ _ ha => exact ⟨false, rfl, .inr ha⟩
    obtain ⟨wh, rfl, hcase⟩ := hS
    apply Phases.withstands_bind
    apply Phases.withstands_alone
    apply wpc_mono (close_mayAll d5 (by rw [d1, f1]; exact hns) hpend)
    · rintro rc w3 ⟨k1, k2, b3, k3, k4⟩
      rw [d2, hb0] at k2 k3
      have hr3 : resolve b3.basename = resolve (fieldPath bf f) := by rw [k3]; exact hres'
      apply Phases.withstands_pure
      refine ⟨k1.trans (d1.trans f1), o2.trans (k2.renamed hres'), ?_⟩
      rcases k4 with ⟨rfl, k4⟩ | ⟨k5, k4⟩
      · rcases hcase with ⟨rfl, hc0⟩ | ⟨e, he, hc0⟩
        · refine .inl ⟨fun r hr => ?_, ?_⟩
          · have := hc0 r hr
            simp [this]
          · have := disk b3 w3.fs _ k3 k4 rfl rfl rfl hpend
            have e : ({ A.grown fsize with attrs := A.saved } : Content) = A.grown fsize := by
              unfold Content.grown
              rw [hsaved]
            rw [← e]
            exact this
        · refine .inr ⟨fun r hr => ?_, .inr ⟨b3, a, _, _, hr3, .inr rfl, k4⟩⟩
          rw [if_pos (.inl (by rw [hc0 r hr]; exact he))]
      · exact .inr ⟨fun r _ => by rw [if_pos (.inr k5)], .inr ⟨b3, a, _, _, hr3, .inl rfl, k4⟩⟩
    · rintro w3 ⟨k2, b3, k3, k4⟩
      rw [d2, hb0] at k2 k3
      exact ⟨o2.trans (k2.renamed hres'), .inr ⟨b3, a, _, _, by rw [k3]; exact hres', .inl rfl, k4⟩⟩
  · rintro fs ⟨k1, S', b', k2, k3, k4⟩
    rw [hb0] at k1 k3
    have o1 := k1.renamed hres'
    rw [e1] at o1
    refine ⟨o1, .inl ?_⟩
    cases k2 with
    | grow =>
      have := disk b' fs _ k3 k4 rfl rfl rfl hpend
      have e : ({ A with attrs := A.saved } : Content) = A := congrArg (fun s => ({ A with attrs := s } : Content)) hsaved
      exact e ▸ this

/-! ## Making -/

theorem Spec.OnlyMade.renamed {a b : CStr} {fs fs' : FS} (h : OnlyMade a fs fs') (hr : resolve a = resolve b) : OnlyMade b fs fs' := by
  intro k hk
  rcases h k hk with ⟨id, h1⟩ | ⟨h1, h2, h3⟩
  · exact .inl ⟨id, by rw [h1, fileKey_eq, fileKey_eq, hr]⟩
  · exact .inr ⟨by rw [← hr]; exact h1, h2, h3⟩

/-- Room elsewhere remains. -/
theorem Spec.Room.made {fs fs' : FS} {base dst : CStr} (h : Room fs base) (ha : Apart base dst) (ha' : Apart dst base)
    (hc : OnlyMade dst fs fs') : Room fs' base := by
  have same : ∀ id, fs'.node (fileKey base id) = fs.node (fileKey base id) := by
    intro id
    by_cases he : fs'.node (fileKey base id) = fs.node (fileKey base id)
    · exact he
    · rcases hc _ he with ⟨id', h1⟩ | ⟨h1, _, _⟩
      · exact absurd (C38_files_distinct _ _ _ _ h1).1 ha.ne
      · exact absurd h1 (ha.notBelow id)
  refine ⟨fun k hk hf => ?_, fun id => by rw [same]; exact h.files id, by rw [same]; exact h.noOld⟩
  by_cases he : fs'.node k = fs.node k
  · exact h.way k hk (by unfold IsFile at hf ⊢; rw [← he]; exact hf)
  · rcases hc k he with ⟨id, rfl⟩ | ⟨_, _, h3⟩
    · exact ha'.notBelow id hk
    · obtain ⟨d, hd⟩ := hf
      rw [h3] at hd
      cases hd

/-- Rank 0's part of a collective creation while file operations fail. -/
theorem createRoot_may {name dt : CStr} {nmemb : Int} {fsize : List Nat} (hbf : bf ≠ []) (hns : NoSilent w.faults)
    (hlen : (mpiPath bf name).length ≤ 8192) :
    wpc (mpiCreateRoot env bf name (some dt) nmemb fsize) w
      (fun x w' => w'.faults = w.faults ∧ OnlyMade (mpiPath bf name) w.fs w'.fs ∧
        (x = (-1, none) ∨ x = (0, some (mpiBroadcast env (freshBlock env (mpiPath bf name) dt nmemb fsize))) ∧
          ∃ fs1, w'.fs = flushFS (newBlock env (mpiPath bf name) dt nmemb fsize) [] fs1 ∧
            (fs1.node (resolve (mpiPath bf name))).isSome = true ∧ OnlyNewDirs w.fs fs1 ∧
            ∀ id, fs1.node (fileKey (mpiPath bf name) id) = w.fs.node (fileKey (mpiPath bf name) id)))
      (fun w' => OnlyMade (mpiPath bf name) w.fs w'.fs) := by
  have hres := resolve_mpiPath bf name hbf
  have hbk : baseKey bf name = resolve bf := by unfold baseKey; rw [if_neg hbf]
  have hkey : baseKey bf name ++ names name = resolve (mpiPath bf name) := by rw [hbk, hres, resolve_join bf name hbf]
  have hmade : ∀ {fs' : FS}, OnlyNewDirs w.fs fs' → (∀ k, fs'.node k ≠ w.fs.node k → ∃ t, t <+: names name ∧ k = baseKey bf name ++ t) →
      OnlyMade (mpiPath bf name) w.fs fs' := by
    intro fs' h1 h2 k hk
    rcases h1 k with h | ⟨h, h'⟩
    · exact absurd h hk
    · obtain ⟨t, ⟨u, hu⟩, rfl⟩ := h2 k hk
      exact Or.inr ⟨⟨u, by rw [List.append_assoc, hu, hkey]⟩, h, h'⟩
  unfold mpiCreateRoot
  rw [wpc_bind]
  refine wpc_mono (mksubdirR_spec bf name w (pathJoin_length (mpiPath_length hlen)) (Or.inr hbf)) ?_ ?_
  · rintro rc w1 ⟨h1, h2, h3, _⟩
    have hm1 := hmade h1.only h1.where_
    rcases h2 with rfl | rfl
    · rw [if_neg (by decide), wpc_bind]
      refine wpc_mono (wpc_wlp (wpc_createInternal (env := env) (dt := dt) (nmemb := nmemb) (fsize := fsize) (w := w1) hlen (isMeta_mpiPath bf name))
        (createInternal_touches env (mpiPath bf name) (some dt) nmemb fsize w1)) ?_ ?_
      · rintro r w2 ⟨⟨k1, _, k3, _⟩, k5⟩
        rw [strdup_short hlen] at k5
        have hm2 := hm1.trans (OnlyMade.of_outside k5)
        rcases k3 with rfl | ⟨rfl, _, k3⟩
        · exact ⟨k1.trans h1.faults, hm2, .inl rfl⟩
        · refine ⟨k1.trans h1.faults, hm2, .inr ⟨rfl, w1.fs, k3 (by rw [h1.faults]; exact hns), ?_, h1.only, fun id => ?_⟩⟩
          · rw [← hkey]
            exact h3 rfl
          · by_cases he : w1.fs.node (fileKey (mpiPath bf name) id) = w.fs.node (fileKey (mpiPath bf name) id)
            · exact he
            · obtain ⟨t, ⟨u, hu⟩, ht⟩ := h1.where_ _ he
              have hl := congrArg List.length ht
              rw [fileKey_eq, ← hkey, ← hu] at hl
              simp at hl
      · rintro w2 ⟨_, k5⟩
        rw [strdup_short hlen] at k5
        exact hm1.trans (OnlyMade.of_outside k5)
    · rw [if_pos (by decide)]
      exact ⟨h1.faults, hm1, .inl rfl⟩
  · rintro w1 ⟨_, h1, _, h3⟩
    exact hmade h1 h3

/-- What is known about a field's block after all processes made it, or tried. -/
structure FieldMakeMay (env : Env) (bf : CStr) (n : Nat) (f : RField) (fsize : List Nat) (w : World) (c : Nat → Int) (w' : World) : Prop where
  faults : w'.faults = w.faults
  out : OnlyMade (fieldPath bf f) w.fs w'.fs
  res : (∀ r, r < n → c r = 0) ∧ OnDisk env (fieldKind env f) w'.fs (fieldPath bf f) (Content.fresh fsize) ∨ ∀ r, r < n → c r = -1

/-- **One field's block made while file operations fail.** -/
theorem make_field_may {fsize : List Nat} (hfmt : FmtOk env) (hbufM : env.chunkBytes < 18446744073709551616) (hns : NoSilent w.faults)
    (hbf : bf ≠ []) (hn : 0 < n ∧ n < 2147483648)
    (hm : Makable env bf f) (hsh : Sharable env bf f) (hs : SizesOk env fsize f) (hroom : Room w.fs (fieldPath bf f)) :
    (mpiCreateField env n bf .wplus fsize f).Withstands w (FieldMakeMay env bf n f fsize w)
      (fun fs => OnlyMade (fieldPath bf f) w.fs fs) := by
  obtain ⟨name, hname⟩ := Option.isSome_iff_exists.mp hsh.name
  obtain ⟨hpath, hz, hlen⟩ := hsh.path hname
  obtain ⟨s1, s2, s3⟩ := hs
  have m4 := hm.item; have m5 := hm.memb; have m6 := hm.small; have m7 := hm.buf
  have hfs : fieldSize env.m f = (itemsize env.m f.dtype).toNat * f.nmemb.toNat := rfl
  rw [hfs] at m6 m7 s3
  have hres : resolve (mpiPath bf name) = resolve (fieldPath bf f) := by rw [hpath]; exact resolve_mpiPath bf name hbf
  have hkeys : ∀ id, fileKey (mpiPath bf name) id = fileKey (fieldPath bf f) id := fun id => by rw [fileKey_eq, fileKey_eq, hres]
  unfold mpiCreateField
  rw [hname]
  dsimp only
  unfold mpiCreateBlock
  apply Phases.withstands_bind
  apply Phases.withstands_bind
  apply Phases.withstands_alone
  refine wpc_mono (createRoot_may hbf hns hlen) ?_ (fun _ h => h.renamed hres)
  rintro x w1 ⟨f1, o1, (rfl | ⟨rfl, fs1, g1, g2, g3, g4⟩)⟩
  · exact Phases.withstands_pure (Phases.withstands_pure ⟨f1, o1.renamed hres, .inr fun _ _ => rfl⟩)
  have hl : Layout (freshBlock env (mpiPath bf name) f.dtype f.nmemb fsize) := freshBlock_layout s2
  have hwa : WellAttrs env.m (freshBlock env (mpiPath bf name) f.dtype f.nmemb fsize).attrset :=
    ⟨[], (attrsetCreate_inv env).dirty false⟩
  have hbr : ∀ r, Mate env (freshBlock env (mpiPath bf name) f.dtype f.nmemb fsize)
      (mpiBroadcast env (freshBlock env (mpiPath bf name) f.dtype f.nmemb fsize) r) := fun r => mate_broadcast hl hz hlen hwa r
  apply Phases.withstands_bind
  apply Phases.withstands_together (P' := fun r => mpiTruncP n r (mpiPath bf name) 0 fsize.length none b!"cannot open")
  · intro r hr
    have e : (mpiBroadcast env (freshBlock env (mpiPath bf name) f.dtype f.nmemb fsize) r).basename = mpiPath bf name := (hbr r).shape.base
    have e' : (mpiBroadcast env (freshBlock env (mpiPath bf name) f.dtype f.nmemb fsize) r).nfile = fsize.length := (hbr r).shape.nfile
    rw [e, e']
  · intro F hF
    obtain ⟨B, hB⟩ := C43_truncate n (mpiPath bf name) 0 fsize.length (fun _ => none) (fun _ => b!"cannot open") w1.fs.node F
      hn.1 hn.2 (by omega) hF
    refine ⟨B, fun es s hr => ?_⟩
    obtain ⟨b1, _, _, hother, hst⟩ := hB es s hr
    have o2 : ∀ dom, OnlyMade (fieldPath bf f) w.fs ⟨s.nodes, dom⟩ := fun dom =>
      (o1.trans (OnlyMade.of_outside (fs' := ⟨s.nodes, dom⟩) fun k hk => hother k fun i _ => hk _)).renamed hres
    refine ⟨b1, o2, fun hs => ?_⟩
    obtain ⟨rc, hret, hdone, _⟩ := hst hs
    have hch : ∀ r, ∃ e, r < n → (s.thr r).prog = .ret (rc, e) := by
      intro r
      by_cases hr : r < n
      · obtain ⟨e, he⟩ := hret r hr
        exact ⟨e, fun _ => he⟩
      · exact ⟨none, fun hr' => absurd hr' hr⟩
    refine ⟨fun r => (rc, (hch r).choose), fun r hr => (hch r).choose_spec hr, fun out dom ho => ?_⟩
    apply Phases.withstands_pure
    dsimp only
    by_cases hrc : rc = 0
    · apply together0_may hn.1
      refine .inl ⟨fun r hr => by rw [ho r hr]; exact hrc, ?_⟩
      have hfd : fs1.node (resolve (mpiPath bf name)) = some .dir := by
        rcases g3 (resolve (mpiPath bf name)) with h | ⟨_, h⟩
        · cases h' : fs1.node (resolve (mpiPath bf name)) with
          | none => rw [h'] at g2; cases g2
          | some nd =>
            cases nd with
            | dir => rfl
            | file d =>
              rw [h', hres] at h
              exact absurd ⟨d, h.symm⟩ (hroom.way _ (List.prefix_refl _))
        · exact h
      have h0 := created_holds (wd := (itemsize env.m f.dtype).toNat) (nm := f.nmemb.toNat) (nmemb := f.nmemb) (fsize := fsize) hfmt hlen
        (isMeta_mpiPath bf name) hm.dtype (by rw [itemsize_normalize]; omega) (by omega) (by omega) (by omega) m6 m7 hbufM s1 s2 s3 rfl hfd
        (by rw [g4, hkeys]; exact hroom.noOld) (fun i => by rw [g4, hkeys]; exact hroom.files _)
      rw [normalize_idem] at h0
      have h1 : Holds env (fieldKind env f) (freshBlock env (mpiPath bf name) f.dtype f.nmemb fsize) ⟨s.nodes, dom⟩ (Content.fresh fsize) := by
        have hsame : ∀ k, s.nodes k = (createFS env (mpiPath bf name) f.dtype f.nmemb fsize fs1).node k := by
          intro k
          unfold createFS
          rw [← g1]
          by_cases hk : ∃ i, i < fsize.length ∧ k = fileKey (mpiPath bf name) (.data i)
          · obtain ⟨i, hi, rfl⟩ := hk
            rw [truncFS_data _ _ _ _ i (Nat.zero_le _) (by omega)]
            have := (hdone hrc).1 i hi
            rwa [Nat.zero_add] at this
          · rw [truncFS_other _ _ _ _ _ (fun i _ h2 he => hk ⟨i, by omega, he⟩)]
            exact hother k fun i hi he => hk ⟨i, hi, by rw [he, Nat.zero_add]⟩
        exact h0.congr (hsame _) (fun id => hsame _)
      have hd := opened_holdsAllD (n := n) (opened_holdsD h1 rfl rfl) rfl hz hn
      apply Phases.withstands_bind
      apply Phases.withstands_alone
      have hbase : (mpiBroadcast env (freshBlock env (mpiPath bf name) f.dtype f.nmemb fsize) 0).basename = mpiPath bf name := rfl
      apply wpc_mono (close_mayAll (w := ⟨⟨s.nodes, dom⟩, w1.faults, w1.clock⟩) hd (by rw [f1]; exact hns) rfl)
      · rintro rc w3 ⟨k1, k2, b3, k3, k4⟩
        rw [hbase] at k2 k3
        apply Phases.withstands_pure
        refine ⟨k1.trans f1, (o2 dom).trans (OnlyMade.of_outside (k2.renamed hres)), ?_⟩
        rcases k4 with ⟨rfl, k4⟩ | ⟨k5, k4⟩
        · refine .inl ⟨fun _ _ => rfl, ?_⟩
          have := onDisk_of_holdsD k4 rfl rfl rfl rfl
          rw [k3] at this
          exact this.renamed hres.symm hm.length hm.notMeta
        · exact .inr fun _ _ => if_pos k5
      · rintro w3 ⟨k2, _⟩
        rw [hbase] at k2
        exact (o2 dom).trans (OnlyMade.of_outside (k2.renamed hres))
    · unfold together0
      rw [if_neg (by
        rw [List.all_eq_true]
        intro hall
        have := hall 0 (List.mem_range.mpr hn.1)
        dsimp only at this
        rw [ho 0 hn.1] at this
        exact hrc (by simpa using this)), if_pos (by
        rw [List.all_eq_true]
        intro r hr
        dsimp only
        rw [ho r (List.mem_range.mp hr)]
        simpa using hrc)]
      exact Phases.withstands_pure ⟨f1, o2 dom, .inr fun _ _ => rfl⟩

/-! ## Transfers that begin after the end -/

/-- All processes return at once. -/
theorem together_ret_may {α : Type} {P : Nat → Prog α} {g : Nat → α} {Q : (Nat → α) → World → Prop} {R : FS → Prop}
    (hP : ∀ r, r < n → P r = .ret (g r))
    (h : ∀ out dom, (∀ r, r < n → out r = g r) → Q out ⟨⟨w.fs.node, dom⟩, w.faults, w.clock⟩) (hR : ∀ dom, R ⟨w.fs.node, dom⟩) :
    (Phases.together n P).Withstands w Q R := by
  apply Phases.withstands_together (P' := fun r => .ret (g r)) hP
  intro F hF
  refine ⟨0, fun es s hr => ?_⟩
  have hs : es = [] ∧ s = startAll (fun r => .ret (g r)) w.fs.node := by
    cases hr with
    | nil => exact ⟨rfl, rfl⟩
    | cons h _ =>
      cases h with
      | file r op k t a nd hr ht he => cases ht
      | coll c hne hall =>
        obtain ⟨r, hr⟩ := List.exists_mem_of_ne_nil _ hne
        exact absurd (hall r hr).2 (by simp [startAll, Prog.WaitsAt])
  obtain ⟨rfl, rfl⟩ := hs
  exact ⟨Nat.le_refl _, hR, fun _ => ⟨_, fun r _ => rfl, fun out dom ho => h out dom ho⟩⟩

/-- **One field transferred from a row after the end.** -/
theorem outside_field_may {hb : Block} (write : Bool) (hc : Complete env.m rt) (hf : f ∈ rt.fields) (hsh : Sharable env bf f) (hbf : bf ≠ [])
    (hn : 0 < n ∧ n < 2147483648) (hs : ∀ r, r < n → size r * rt.itemsize < 9223372036854775808)
    (h : OnDisk env (fieldKind env f) w.fs (fieldPath bf f) A) (hcut : HeaderCut w.fs (fieldPath bf f) hb)
    (hp : A.size < p) (hp1 : p < 9223372036854775808) :
    (mpiXferField env write n bf rt conc thr p size buf f mem).Withstands w
      (fun x w' => w'.faults = w.faults ∧ w'.fs.node = w.fs.node ∧ ∀ r, r < n → x.1 r = -1 ∧ x.2 r = mem r) (fun fs => fs.node = w.fs.node) := by
  obtain ⟨name, hname⟩ := Option.isSome_iff_exists.mp hsh.name
  obtain ⟨hpath, hz, hlen⟩ := hsh.path hname
  have hg := goodField hc hf hsh.memb hsh.item
  unfold mpiXferField
  apply Phases.withstands_bind
  refine view_all_may hg hs ?_ (fun dom => rfl)
  intro arr dom harr
  rw [hname]
  dsimp only
  have hres' : resolve (mpiPath bf name) = resolve (fieldPath bf f) := by rw [hpath]; exact resolve_mpiPath bf name hbf
  apply Phases.withstands_bind
  apply Phases.withstands_alone
  unfold mpiOpenBlock
  have hsame : OnDisk env (fieldKind env f) ⟨w.fs.node, dom⟩ (fieldPath bf f) A := h.congr rfl fun _ => rfl
  apply wpc_mono (open_mayAll (n := n) (w := ⟨⟨w.fs.node, dom⟩, w.faults, w.clock⟩)
    (hsame.renamed hres' hlen (isMeta_mpiPath bf name)) ((show HeaderCut _ _ hb from hcut).renamed hres') hz hn)
  case hc =>
    intro w' e
    rw [e]
  rintro x w1 ⟨e1, f1, (rfl | ⟨b, a, rfl, hb1, hb2, hb3, h1⟩)⟩
  · exact Phases.withstands_pure ⟨f1, by rw [e1], fun _ _ => ⟨rfl, rfl⟩⟩
  obtain ⟨_, _, bb, hh, _, _, _, hmate⟩ := h1
  have hseek : ∀ r, r < n → seek (mpiBroadcast env b r) ⟨0, 0, 0⟩ (p : Int) = some (-1, ⟨0, 0, 0⟩) := by
    intro r hr
    refine (seek_row (hmate r hr).layout p hp1).2 ?_
    rw [(hmate r hr).shape.size, hh.size]
    exact hp
  apply Phases.withstands_bind
  apply together_ret_may (g := fun r => ((-1 : Int), (⟨mpiBroadcast env b r, ⟨0, 0, 0⟩, arr r, mem r, none, b!"transfer failed"⟩ : Rank)))
  · intro r hr
    unfold xferP
    rw [hseek r hr]
    rfl
  · intro out dom' ho
    have hcl : mpiClose env n (fun r => (out r).2.bb) = pure 0 := by
      apply close_clean
      · intro r hr
        rw [ho r hr]
        show (mpiBroadcast env b r).dirty = false
        unfold mpiBroadcast
        split
        · exact hb2
        · exact hb2
      · rw [ho 0 hn.1]
        exact hb3
    apply Phases.withstands_bind
    apply Phases.withstands_alone
    rw [hcl, wpc_pure]
    apply Phases.withstands_pure
    refine ⟨f1, by rw [e1], fun r hr => ⟨?_, ?_⟩⟩
    · dsimp only
      rw [if_pos (.inl (by rw [ho r hr]; exact (by decide : (-1 : Int) ≠ 0)))]
    · dsimp only
      rw [ho r hr]
  · intro dom'
    rw [e1]

end

end Verif
