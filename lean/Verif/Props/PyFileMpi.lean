import Verif.Model.PyFileMpi
import Verif.Props.PyFile
import Verif.Props.PyMpi
import Verif.Props.MpiFile
import Verif.Proof.CopyMay
/-!
# C99: the file object that processes share
-/

set_option autoImplicit false

namespace Verif

open Spec

/-- **Specification.** The names of the blocks in the directory of the file, each once, in the order of their bytes. -/
def Spec.BlockList (fs : FS) (file : CStr) (l : List CStr) : Prop :=
  (l.Pairwise fun x y => strcmp x y = .lt) ∧ ∀ name, name ∈ l ↔ ∃ cs, Listed fs (resolve file) cs ∧ name = joinNames cs

/-- A list of blocks is determined by the directory. -/
theorem Spec.BlockList.unique {fs : FS} {file : CStr} {l l' : List CStr} (h : BlockList fs file l) (h' : BlockList fs file l') : l = l' := by
  refine List.Perm.eq_of_pairwise (le := fun x y => strcmp x y = .lt) ?_ h.1 h'.1 ?_
  · intro a b _ _ h1 h2
    have h3 := strcmp_lt_trans h1 h2
    rw [(strcmp_eq_iff a a).mpr rfl] at h3
    cases h3
  · have nd : ∀ {l : List CStr}, l.Pairwise (fun x y => strcmp x y = .lt) → l.Nodup := fun hp =>
      hp.imp fun {a b} hlt heq => by
        subst heq
        rw [(strcmp_eq_iff a a).mpr rfl] at hlt
        cases hlt
    exact (List.perm_ext_iff_of_nodup (nd h.1) (nd h'.1)).mpr fun name => (h.2 name).trans (h'.2 name).symm

/-! ## Helpers -/

theorem pyFileInit_open (file : CStr) (w : World) (hnf : w.faults = noFaults) (hb : file ≠ []) (hlen : file.length ≤ 8192) :
    pyFileInit file false w = .ok (if (w.fs.node (resolve file)).isSome = true then .ok ⟨file, none⟩ else .error .error)
      { w with clock := w.clock + 1 } := by
  have hd : strdup file = file := List.take_of_length_le hlen
  have h1 := statOk_plain file w hnf
  rw [decide_eq_true hb, Bool.true_and] at h1
  show (M.bind (M.bind (statOk file) _) _) w = _
  simp only [M.bind, h1]
  cases hn : (w.fs.node (resolve file)).isSome with
  | false => rfl
  | true => simp only [if_true, hd]; rfl

theorem pyFileInitRanks_open (file : CStr) (hb : file ≠ []) (hlen : file.length ≤ 8192) (n : Nat) (w : World) (hnf : w.faults = noFaults) :
    ∃ H, pyFileInitRanks file n w = .ok H { w with clock := w.clock + n } ∧
      ∀ r, r < n → H r = if (w.fs.node (resolve file)).isSome = true then .ok ⟨file, none⟩ else .error .error := by
  induction n with
  | zero => exact ⟨_, rfl, fun r hr => absurd hr (Nat.not_lt_zero r)⟩
  | succ n ih =>
    obtain ⟨H, e, hH⟩ := ih
    have e2 := pyFileInit_open file { w with clock := w.clock + n } hnf hb hlen
    refine ⟨fun q => if q = n then (if (w.fs.node (resolve file)).isSome = true then .ok ⟨file, none⟩ else .error .error) else H q,
      ?_, fun r hr => ?_⟩
    · show (M.bind (pyFileInitRanks file n) _) w = _
      simp only [M.bind, e]
      show (M.bind (pyFileInit file false) _) _ = _
      simp only [M.bind, e2]
      rfl
    · dsimp only
      by_cases h : r = n
      · rw [if_pos h]
      · rw [if_neg h]; exact hH r (by omega)

/-- Directories on the way to `r` do not matter to what is listed below `r`. -/
theorem listed_above {fs fs' : FS} {r : Key} (h : ∀ k, fs'.node k ≠ fs.node k → k <+: r) (cs : List CStr) :
    Listed fs' r cs ↔ Listed fs r cs := by
  have key : ∀ ds, HasHeader fs' (r ++ ds) ↔ HasHeader fs (r ++ ds) := by
    intro ds
    unfold HasHeader
    have : fs'.node (r ++ ds ++ [b!"header"]) = fs.node (r ++ ds ++ [b!"header"]) := by
      apply Decidable.of_not_not
      intro hne
      have := (h _ hne).length_le
      simp only [List.length_append, List.length_cons, List.length_nil] at this
      omega
    rw [this]
  constructor
  · intro g
    exact ⟨g.ne, g.names, g.nodots, (key cs).mp g.header, fun j h0 hj hh => g.outer j h0 hj ((key _).mpr hh)⟩
  · intro g
    exact ⟨g.ne, g.names, g.nodots, (key cs).mpr g.header, fun j h0 hj hh => g.outer j h0 hj ((key _).mp hh)⟩

theorem pyMpiFileInit_open (sort : List CStr → List CStr) (hsort : ∀ l, (sort l).Perm l) (n : Nat) (file : CStr) (create : Bool) (w w1 : World)
    (F : Nat → Nat → Fault) (hn : 0 < n) (e : pyMpiFileMake file create w = .ok () w1) (hnf : w1.faults = noFaults) (ht : TreeOk w1.fs)
    (hb : file ≠ []) (hlen : file.length ≤ 8192) (hdir : (w1.fs.node (resolve file)).isSome = true)
    (hl : ∀ cs, Listed w1.fs (resolve file) cs → (joinNames cs).length ≤ 8192) :
    (pyMpiFileInit sort n file create).Ensures F w fun x w' => w'.fs = w1.fs ∧
      ∃ l, BlockList w1.fs file l ∧ ∀ r, r < n → x r = .ok ⟨file, some l⟩ := by
  unfold pyMpiFileInit
  apply Phases.ensures_bind
  refine Phases.ensures_alone e ?_
  obtain ⟨H, e2, hH⟩ := pyFileInitRanks_open file hb hlen n w1 hnf
  rw [hdir, if_pos rfl] at hH
  apply Phases.ensures_bind
  refine Phases.ensures_alone e2 ?_
  rw [goOn_none (fun r hr => by rw [hH r hr])]
  apply Phases.ensures_bind
  unfold pyMpiRefresh
  apply Phases.ensures_bind
  obtain ⟨l, w3, e3, f3, o3, m3⟩ := pyListBlocks_spec sort hsort ⟨file, none⟩ { w1 with clock := w1.clock + n } hnf ht hb hl
  refine Phases.ensures_alone (a := l) (w' := w3) (by dsimp only; rw [hH 0 hn]; exact e3) ?_
  refine Phases.ensures_pure (Phases.ensures_pure ⟨f3, l, ⟨o3, m3⟩, fun r hr => ?_⟩)
  dsimp only
  rw [hH r hr]

/-! ## C99 -/

/-- **C99, an existing file.** Without faults, if the directory is there, all processes get a file object for it, with the same list: that of
the blocks on the disk. Nothing changes on the disk. -/
theorem C99_open (sort : List CStr → List CStr) (hsort : ∀ l, (sort l).Perm l) (n : Nat) (file : CStr) (w : World)
    (F : Nat → Nat → Fault) (hn : 0 < n) (hnf : w.faults = noFaults) (ht : TreeOk w.fs) (hb : file ≠ []) (hlen : file.length ≤ 8192)
    (hdir : (w.fs.node (resolve file)).isSome = true) (hl : ∀ cs, Listed w.fs (resolve file) cs → (joinNames cs).length ≤ 8192) :
    (pyMpiFileInit sort n file false).Ensures F w fun x w' => w'.fs = w.fs ∧
      ∃ l, BlockList w.fs file l ∧ ∀ r, r < n → x r = .ok ⟨file, some l⟩ :=
  pyMpiFileInit_open sort hsort n file false w w F hn rfl hnf ht hb hlen hdir hl

/-- **C99, no such file.** Without faults, if nothing is there, all processes raise an exception. -/
theorem C99_missing (sort : List CStr → List CStr) (n : Nat) (file : CStr) (w : World) (F : Nat → Nat → Fault) (hn : 0 < n)
    (hnf : w.faults = noFaults) (hb : file ≠ []) (hlen : file.length ≤ 8192) (hno : w.fs.node (resolve file) = none) :
    (pyMpiFileInit sort n file false).Ensures F w fun x w' => w'.fs = w.fs ∧ ∀ r, r < n → x r = .error .error := by
  unfold pyMpiFileInit
  apply Phases.ensures_bind
  refine Phases.ensures_alone (a := ()) (w' := w) rfl ?_
  obtain ⟨H, e2, hH⟩ := pyFileInitRanks_open file hb hlen n w hnf
  rw [hno] at hH
  apply Phases.ensures_bind
  refine Phases.ensures_alone e2 ?_
  have hH' : ∀ r, r < n → H r = .error .error := fun r hr => hH r hr
  unfold pyGoOn
  rw [if_neg (by
      intro h
      rw [List.all_eq_true] at h
      have := h 0 (List.mem_range.mpr hn)
      dsimp only at this
      rw [hH' 0 hn] at this
      simp at this),
    if_pos (by
      rw [List.all_eq_true]
      intro r hr
      dsimp only
      rw [hH' r (List.mem_range.mp hr)]
      rfl)]
  refine Phases.ensures_pure ⟨rfl, fun r hr => ?_⟩
  dsimp only
  rw [hH' r hr]
  rfl

/-- **C99, a new file.** Without faults, if no file is on the way, all processes get a file object with the same list, that of the blocks on
the disk. The directories on the way are there, and nothing else has changed. -/
theorem C99_create (sort : List CStr → List CStr) (hsort : ∀ l, (sort l).Perm l) (n : Nat) (file : CStr) (w : World)
    (F : Nat → Nat → Fault) (hn : 0 < n) (hnf : w.faults = noFaults) (ht : TreeOk w.fs) (hb : file ≠ []) (hlen : file.length ≤ 8192)
    (hway : ∀ k, k <+: resolve file → ¬ IsFile w.fs k)
    (hl : ∀ cs, Listed w.fs (resolve file) cs → (joinNames cs).length ≤ 8192) :
    (pyMpiFileInit sort n file true).Ensures F w fun x w' =>
      w'.fs.node (resolve file) = some .dir ∧
      (∀ k, w'.fs.node k ≠ w.fs.node k → k <+: resolve file ∧ w.fs.node k = none ∧ w'.fs.node k = some .dir) ∧
      ∃ l, BlockList w'.fs file l ∧ ∀ r, r < n → x r = .ok ⟨file, some l⟩ := by
  obtain ⟨w1, e, nf1, _, h1, h2⟩ := bigFileCreate_makes hnf ht hb hlen hway
  have ht1 : TreeOk w1.fs := (wlp_ok (bigFileCreate_keeps file w ht) e).1
  have e1 : pyMpiFileMake file true w = .ok () w1 := by
    show (M.bind (M.bind (bigFileCreate file) _) _) w = _
    simp only [M.bind, e]
    rfl
  refine Phases.ensures_mono (pyMpiFileInit_open sort hsort n file true w w1 F hn e1 nf1 ht1 hb hlen (by rw [h1]; rfl) ?_) ?_
  · intro cs hcs
    exact hl cs ((listed_above (fun k hk => (h2 k hk).1) cs).mp hcs)
  · rintro x w' ⟨hf, l, hlist, hx⟩
    rw [hf]
    exact ⟨h1, h2, l, hlist, hx⟩

/-- **C99, a directory of blocks as a file.** Without faults `subfile(key)`, for a key that does not begin with a slash, is on all processes a
file object for that directory, with the list of the blocks in it. (Keys that begin with a slash: `C96_mpi_leaves_partial`.) -/
theorem C99_subfile (sort : List CStr → List CStr) (hsort : ∀ l, (sort l).Perm l) (n : Nat) (f : PyFile) (key : CStr) (w : World)
    (F : Nat → Nat → Fault) (hn : 0 < n) (hnf : w.faults = noFaults) (ht : TreeOk w.fs) (hb : f.basename ≠ [])
    (hk : key.head? ≠ some '/'.toUInt8) (hlen : (osJoin f.basename key).length ≤ 8192)
    (hdir : (w.fs.node (resolve f.basename ++ names key)).isSome = true)
    (hl : ∀ cs, Listed w.fs (resolve f.basename ++ names key) cs → (joinNames cs).length ≤ 8192) :
    (pyMpiSubfile sort n f key).Ensures F w fun x w' => w'.fs = w.fs ∧
      ∃ g, resolve g.basename = resolve f.basename ++ names key ∧ (∀ r, r < n → x r = .ok g) ∧
        ∃ l, g.blocks = some l ∧ BlockList w.fs g.basename l := by
  have hk : key.head? ≠ some 47 := hk
  have hres : resolve (osJoin f.basename key) = resolve f.basename ++ names key := by
    rw [osJoin_base _ _ hb hk, resolve_join _ _ hb]
  have hne : osJoin f.basename key ≠ [] := by
    rw [osJoin_base _ _ hb hk, pathJoin_sep _ _ hb]
    simp [hb]
  unfold pyMpiSubfile
  refine Phases.ensures_mono (C99_open sort hsort n _ w F hn hnf ht hne hlen (by rw [hres]; exact hdir) (by rw [hres]; exact hl)) ?_
  rintro x w' ⟨h1, l, h2, h3⟩
  exact ⟨h1, _, hres, h3, l, rfl, h2⟩

theorem joinNames_prefix_length {ds cs : List CStr} (h : ds <+: cs) : (joinNames ds).length ≤ (joinNames cs).length := by
  obtain ⟨es, rfl⟩ := h
  by_cases h1 : ds = []
  · subst h1; exact Nat.zero_le _
  · by_cases h2 : es = []
    · subst h2; rw [List.append_nil]; exact Nat.le_refl _
    · rw [joinNames_append ds es h1 h2, List.length_append]
      omega

/-- What is listed after a block has been made: what was listed before, the block, and directories on the way to it that seem to be
blocks. -/
theorem listed_made {fs fs' : FS} {bf : CStr} {cs : List CStr} (hb : bf ≠ []) (hcs : ∀ c ∈ cs, IsName c)
    (h : OnlyMade (pathJoin bf (joinNames cs)) fs fs') (hlost : NothingLost fs fs') (ds : List CStr) (hds : Listed fs' (resolve bf) ds) :
    Listed fs (resolve bf) ds ∨ ds <+: cs := by
  have hres : resolve (pathJoin bf (joinNames cs)) = resolve bf ++ cs := by rw [resolve_join _ _ hb, names_joinNames cs hcs]
  have hkeep : ∀ k, HasHeader fs k → HasHeader fs' k := by
    intro k hk
    unfold HasHeader at hk ⊢
    cases hn : fs.node (k ++ [b!"header"]) with
    | none => rw [hn] at hk; cases hk
    | some nd =>
      cases nd with
      | dir => rw [(hlost _).1 hn]; rfl
      | file d =>
        obtain ⟨d', hd'⟩ := (hlost _).2 ⟨d, hn⟩
        rw [hd']; rfl
  by_cases hk : fs'.node (resolve bf ++ ds ++ [b!"header"]) = fs.node (resolve bf ++ ds ++ [b!"header"])
  · left
    refine ⟨hds.ne, hds.names, hds.nodots, ?_, fun j h0 hj hh => hds.outer j h0 hj (hkeep _ hh)⟩
    have := hds.header
    unfold HasHeader at this ⊢
    rwa [hk] at this
  · right
    rcases h _ hk with ⟨id, he⟩ | ⟨hp, _⟩
    · rw [fileKey_eq, hres, List.append_assoc, List.append_assoc] at he
      have he := List.append_cancel_left he
      rw [(List.append_inj' he rfl).1]
      exact List.prefix_refl _
    · rw [hres, List.append_assoc] at hp
      exact (List.prefix_append ds _).trans ((List.prefix_append_right_inj _).mp hp)

/-- **C99, a new block.** Without faults, if a block of that name can be made, `create` makes it, all processes get handles of it, and
the file objects of all processes have the same list, that of the blocks now on the disk; it has the new block if that is to be listed. -/
theorem C99_new_block (env : Env) (K : Kind) (sort : List CStr → List CStr) (hsort : ∀ l, (sort l).Perm l) (n : Nat) (G : Nat → PyFile) (bf : CStr)
    (cs : List CStr) (src : PySource) (nfile : Nat) (w : World) (hn : 0 < n) (ht : TreeOk w.fs) (hG : ∀ r, r < n → (G r).basename = bf)
    (hcs : ∀ c ∈ cs, IsName c) (h : CanCreate env K w bf (joinNames cs) src nfile)
    (hl : ∀ ds, Listed w.fs (resolve bf) ds → (joinNames ds).length ≤ 8192) :
    (pyMpiFileCreate env sort n G (joinNames cs) src nfile).Ensures faultless w fun x w' =>
      OnlyMade (pathJoin bf (joinNames cs)) w.fs w'.fs ∧
      OnDisk env K w'.fs (pathJoin bf (joinNames cs)) (Content.fresh (pySizes nfile src.size)) ∧
      ∃ l, BlockList w'.fs bf l ∧ (Listed w'.fs (resolve bf) cs → joinNames cs ∈ l) ∧
        ∀ r, r < n → ∃ b, x r = .ok (b, ⟨bf, some l⟩) ∧ b.basename = pathJoin bf (joinNames cs) ∧
          Holds env K b w'.fs (Content.fresh (pySizes nfile src.size)) := by
  obtain ⟨b1, w1, e1, hb1, hd1, nf1, h1⟩ := h.created
  obtain ⟨b2, w2, e2, nf2, s2, c2, d2, o2, h2⟩ := h1.flushes nf1
  have hroot : pyCreateRoot env bf (joinNames cs) src nfile src.size w = .ok none w2 := by
    unfold pyCreateRoot
    have hinner : ¬ 1 < src.inner.length := by
      rcases h.source.inner with ⟨h1, _⟩ | h1 <;> rw [h1] <;> simp
    rw [if_neg (by rintro ⟨k1, k2⟩; rcases h.files with h5 | h5 <;> omega), if_neg hinner]
    show M.bind (createBlock env bf (joinNames cs) (some src.dtype) (pyItems src.inner) (pySizes nfile src.size)) _ w = _
    rw [M.bind, e1]
    show M.bind (blockFlush env b1) _ w1 = _
    rw [M.bind, e2]
    rfl
  have hm : OnlyMade (pathJoin bf (joinNames cs)) w.fs w2.fs := by
    have m1 := (wpc_ok (createBlock_may ht h.file h.short h.notMeta) e1).2.1
    rw [hb1] at o2
    exact m1.trans (OnlyMade.of_outside o2)
  have ht1 := wlp_ok (createBlock_keeps _ _ _ _ _ _ w ht) e1
  have ht2 := ht1.trans (wlp_ok (blockFlush_keeps _ _ w1 ht1.1) e2)
  have hpath : (joinNames cs).length ≤ 8192 := by
    have := h.short
    rw [pathJoin_sep _ _ h.file, List.length_append] at this
    omega
  unfold pyMpiFileCreate
  rw [hG 0 hn]
  apply Phases.ensures_bind
  refine Phases.ensures_alone hroot ?_
  rw [goOn_none (fun r _ => by split <;> rfl)]
  refine mpiOpen_ok hn h2 (by rw [s2.base, hb1]) rfl rfl d2 nf2 ?_
  intro H w3 f3 nf3 hH
  apply Phases.ensures_bind
  unfold pyMpiRefresh
  apply Phases.ensures_bind
  obtain ⟨l, w4, e4, f4, o4, m4⟩ := pyListBlocks_spec sort hsort (G 0) w3 nf3 (by rw [f3]; exact ht2.1) (by rw [hG 0 hn]; exact h.file) (by
    rw [f3, hG 0 hn]
    intro ds hds
    rcases listed_made h.file hcs hm ht2.2 ds hds with h5 | h5
    · exact hl ds h5
    · exact Nat.le_trans (joinNames_prefix_length h5) hpath)
  rw [hG 0 hn, f3] at m4
  rw [f3] at f4
  refine Phases.ensures_alone e4 (Phases.ensures_pure (Phases.ensures_pure ?_))
  rw [f4]
  refine ⟨hm, ⟨rfl, rfl, b2, by rw [s2.base, hb1], d2, h2⟩, l, ⟨o4, m4⟩, fun hls => (m4 _).mpr ⟨cs, hls, rfl⟩, fun r hr => ⟨H r, ?_, ?_, (hH r hr).2.2.2⟩⟩
  · dsimp only
    rw [hG r hr]
  · rw [(hH r hr).1.base, s2.base, hb1]

theorem pyFileInit_up (file : CStr) (w : World) (hf : w.faults w.clock = .none) (hb : file ≠ [])
    (hdir : (w.fs.node (resolve file)).isSome = true) :
    pyFileInit file false w = .ok (.ok ⟨strdup file, none⟩) { w with clock := w.clock + 1 } := by
  simp [pyFileInit, bigFileOpen, statOk, bind, M.bind, pure, M.pure, tick, hf, getFS, hdir, hb]

theorem pyFileInit_down (file : CStr) (w : World) (hf : w.faults w.clock = .fail) :
    pyFileInit file false w = .ok (.error .error) { w with clock := w.clock + 1 } := by
  simp [pyFileInit, bigFileOpen, statOk, bind, M.bind, pure, M.pure, tick, hf]

/-- The processes look for the directory when only the first fails to. -/
theorem initRanks_first {file : CStr} {w w' : World} {n : Nat} {H : Nat → Except PyExc PyFile} (hfail : w.faults w.clock = .fail)
    (hrest : ∀ t, w.clock < t → w.faults t = .none) (hb : file ≠ []) (hdir : (w.fs.node (resolve file)).isSome = true) (hn : 0 < n)
    (e : pyFileInitRanks file n w = .ok H w') : H 0 = .error .error ∧ ∀ r, 0 < r → r < n → ∃ f, H r = .ok f := by
  have key : ∀ m, ∃ H', pyFileInitRanks file (m + 1) w = .ok H' { w with clock := w.clock + (m + 1) } ∧ H' 0 = .error .error ∧
      ∀ r, 0 < r → r < m + 1 → ∃ f, H' r = .ok f := by
    intro m
    induction m with
    | zero =>
      refine ⟨fun q => if q = 0 then .error .error else .error .error, ?_, rfl, fun r h0 h1 => by omega⟩
      show (M.bind (pyFileInit file false) _) w = _
      simp only [M.bind, pyFileInit_down file w hfail]
      rfl
    | succ m ih =>
      obtain ⟨H', e', h0, h1⟩ := ih
      have e2 := pyFileInit_up file { w with clock := w.clock + (m + 1) } (hrest _ (by dsimp only; omega)) hb hdir
      refine ⟨fun q => if q = m + 1 then .ok ⟨strdup file, none⟩ else H' q, ?_, ?_, fun r hr0 hr => ?_⟩
      · show (M.bind (pyFileInitRanks file (m + 1)) _) w = _
        simp only [M.bind, e']
        show (M.bind (pyFileInit file false) _) _ = _
        simp only [M.bind, e2]
        rfl
      · dsimp only
        rw [if_neg (by omega), h0]
      · dsimp only
        by_cases hq : r = m + 1
        · rw [if_pos hq]; exact ⟨_, rfl⟩
        · rw [if_neg hq]; exact h1 r hr0 (by omega)
  obtain ⟨m, rfl⟩ : ∃ m, n = m + 1 := ⟨n - 1, by omega⟩
  obtain ⟨H', e', h⟩ := key m
  rw [e] at e'
  injection e' with e' _
  rw [e']
  exact h

/-- **C99, a failure on rank 0 only.** If rank 0 alone cannot look for the directory, it raises an exception and the others wait for ever. -/
theorem C99_waits_partial (sort : List CStr → List CStr) (n : Nat) (file : CStr) (w : World) (F : Nat → Nat → Fault) (hn : 2 ≤ n)
    (hfail : w.faults w.clock = .fail) (hrest : ∀ t, w.clock < t → w.faults t = .none) (hb : file ≠ [])
    (hdir : (w.fs.node (resolve file)).isSome = true) (Q : (Nat → Except PyExc PyFile) → World → Prop) :
    ¬ (pyMpiFileInit sort n file false).Ensures F w Q := by
  intro h
  obtain ⟨_, w1, e1, h1⟩ := ensures_alone_elim h
  injection e1 with _ e1
  subst e1
  obtain ⟨H, w2, e2, h2⟩ := ensures_alone_elim h1
  obtain ⟨h3, h4⟩ := initRanks_first hfail hrest hb hdir (by omega) e2
  have h4 := h4 1 (by omega) (by omega)
  unfold pyGoOn at h2
  rw [if_neg (by
    rw [List.all_eq_true]
    intro hc
    have := hc 0 (List.mem_range.mpr (by omega))
    dsimp only at this
    rw [h3] at this
    cases this), if_neg (by
    rw [List.all_eq_true]
    intro hc
    have := hc 1 (List.mem_range.mpr (by omega))
    dsimp only at this
    obtain ⟨f, h4⟩ := h4
    rw [h4] at this
    cases this)] at h2
  exact h2

/-- **C99, a block that cannot be made.** If making the block fails on rank 0, it raises an exception and the others wait for ever. -/
theorem C99_create_waits_partial (env : Env) (sort : List CStr → List CStr) (n : Nat) (G : Nat → PyFile) (name : CStr) (src : PySource)
    (nfile : Nat) (w w' : World) (e : PyExc) (F : Nat → Nat → Fault) (hn : 2 ≤ n)
    (he : pyCreateRoot env (G 0).basename name src nfile src.size w = .ok (some e) w')
    (Q : (Nat → Except PyExc (Block × PyFile)) → World → Prop) :
    ¬ (pyMpiFileCreate env sort n G name src nfile).Ensures F w Q := by
  unfold pyMpiFileCreate
  intro h
  obtain ⟨x, w1, e1, h1⟩ := ensures_alone_elim h
  rw [he] at e1
  injection e1 with e1 e2
  subst e1 e2
  unfold pyGoOn at h1
  rw [if_neg (by
    rw [List.all_eq_true]
    intro hc
    have := hc 0 (List.mem_range.mpr (by omega))
    simp at this), if_neg (by
    rw [List.all_eq_true]
    intro hc
    have := hc 1 (List.mem_range.mpr (by omega))
    simp at this)] at h1
  exact h1

/-! ## Examples -/

example := C99_open id (fun _ => List.Perm.refl _) 3 b!"d" exTreeWorld faultless (by decide) rfl exTree_ok (by decide) (by decide) (by decide) (fun cs h => exTree_short _ cs h)
example := C99_missing id 2 b!"e" exTreeWorld faultless (by decide) rfl (by decide) (by decide) (by decide)
theorem exCanCreate_z : CanCreate exEnv exKind exTreeWorld b!"d" (joinNames [b!"z"]) (joined 3 exPyParts) 3 := by
  rw [show joinNames [b!"z"] = b!"z" from rfl]
  exact exCanCreate_all

/-- Three processes make the block `z` together. -/
example (w : World) (hw : w = exTreeWorld) :
    (pyMpiFileCreate exEnv id 3 (fun _ => ⟨b!"d", none⟩) (joinNames [b!"z"]) (joined 3 exPyParts) 3).Ensures faultless w
    fun x w' => ∃ l, BlockList w'.fs b!"d" l ∧ ∀ r, r < 3 → ∃ b, x r = .ok (b, ⟨b!"d", some l⟩) := by
  have hc : ∀ c ∈ [b!"z"], IsName c := by
    intro c hc
    have : c = b!"z" := by simpa using hc
    subst this
    exact names_isName b!"z" _ (by decide)
  have hl : ∀ ds, Listed w.fs (resolve b!"d") ds → (joinNames ds).length ≤ 8192 := by rw [hw]; exact fun cs h => exTree_short _ cs h
  have hG : ∀ r, r < 3 → ((fun _ => ⟨b!"d", none⟩ : Nat → PyFile) r).basename = b!"d" := fun _ _ => rfl
  have key := C99_new_block exEnv exKind id (fun l => List.Perm.refl l) 3 (fun _ => ⟨b!"d", none⟩) b!"d" [b!"z"] (joined 3 exPyParts) 3 w
    (by decide) (by rw [hw]; exact exTree_ok) hG hc (by rw [hw]; exact exCanCreate_z) hl
  refine Phases.ensures_mono key ?_
  rintro x w' ⟨_, _, l, h1, _, h2⟩
  exact ⟨l, h1, fun r hr => (h2 r hr).imp fun b h => h.1⟩

/-- A world in which the first operation fails. -/
example := C99_waits_partial id 2 b!"d" { exTreeWorld with faults := fun t => if t = exTreeWorld.clock then .fail else .none } faultless
  (by decide) (by simp) (fun t ht => if_neg (by dsimp only at ht; omega)) (by decide) (by decide)

/-- Asked for no files for one row, rank 0 raises `ValueError` and the other waits. -/
example := C99_create_waits_partial exEnv id 2 (fun _ => ⟨b!"d", none⟩) b!"z" { exPySource with size := 1 } 0 exTreeWorld exTreeWorld .valueError
  faultless (by decide) rfl

end Verif
