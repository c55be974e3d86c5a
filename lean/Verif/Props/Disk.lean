import Verif.Proof.Create
import Verif.Props.Attr
/-!
# C11 to C17, C30, C31: metadata on disk
-/

set_option autoImplicit false

namespace Verif

open Spec

/-! ## A concrete block on disk -/

/-- An empty file system with one directory `d`. -/
def exEmptyFS : FS := ⟨fun k => if k = [] ∨ k = [b!"d"] then some .dir else none, [[], [b!"d"]]⟩

/-- The world with that file system and no faults. -/
def exEmpty : World := ⟨exEmptyFS, noFaults, 0⟩

/-- Creating block `x` in `d`, three files. -/
def exCreate : Res (Int × Option Block) := createBlock exEnv b!"d" b!"x" (some b!"i4") 1 [2, 0, 3] exEmpty

/-- The world after creating it. -/
def exW : World := ⟨(exCreate.world exEmpty).fs, noFaults, 0⟩

theorem exW_nf : exW.faults = noFaults := rfl

attribute [irreducible] exW

/-- Its handle. -/
def exB : Block := freshBlock exEnv b!"d/x" b!"i4" 1 [2, 0, 3]

example : (exCreate.val?.map fun r => r.1) = some 0 := by decide +kernel

theorem exB_good : GoodHeader exB :=
  ⟨⟨by decide, by decide, by decide, by decide⟩, by decide, by decide, by decide, by decide, by decide,
    by decide, by decide⟩

theorem exFmt : FmtOk exEnv := fun _ =>
  ⟨⟨by show OneLine b!"1.5"; unfold OneLine; decide, by show (b!"1.5").length ≤ 13; decide⟩, by show OneLine b!"2.5"; unfold OneLine; decide, by show (b!"2.5").length ≤ 13; decide⟩

theorem exDir : DirOk exW.fs exB.basename :=
  ⟨by decide +kernel, by decide +kernel, by decide +kernel⟩

/-! ## C11 -/

/-- **C11** (partial: up to 16^6 files, see `C11_too_many`). Closing a block and opening it again yields
the same dtype, nmemb, number of files, sizes, offsets, total and checksums. -/
theorem C11_reopen_partial (env : Env) (bb : Block) (w : World) (hnf : w.faults = noFaults)
    (hsv : Savable env bb) (hdir : DirOk w.fs bb.basename)
    (hold : bb.attrset.dirty = true → OldOk env w.fs bb.basename (attrView env.m bb.attrset))
    (hsync : Synced env w.fs bb) :
    ∃ b w', closeOpen env bb w = .ok (0, 0, some b) w' ∧ SameShape bb b ∧ b.fchecksum = bb.fchecksum := by
  obtain ⟨b, w', h1, _, h2, h3, _⟩ := closeOpen_spec hnf hsv hdir hold hsync
  exact ⟨b, w', h1, h2, h3⟩

/-- **C11 is false** for more than 16777216 files: closing reports success, but opening fails (the index
of file 16777216 needs seven digits and is read with `%06X`). -/
theorem C11_too_many (env : Env) (bb : Block) (w : World) (M : AttrMap) (hnf : w.faults = noFaults)
    (h : WideHeader bb) (hn : 16777216 < bb.nfile) (hd : bb.dirty = true) (ha : bb.attrset.dirty = false)
    (hdir : DirOk w.fs bb.basename) (hat : AttrsSay env w.fs bb.basename M) (hlen : bb.basename.length ≤ 8192)
    (hmeta : isMeta bb.basename = false) :
    ∃ w', closeOpen env bb w = .ok (0, -1, none) w' := by
  obtain ⟨s1, s2, h1, h2, _⟩ := hat
  have key : wpc (closeOpen env bb) w (fun r _ => r = (0, -1, none)) (fun _ => False) := by
    unfold closeOpen blockClose
    rw [wpc_bind, wpc_bind]
    apply wpc_mono (wpc_blockFlush env bb [] bb.attrset w (fun h => by rw [ha] at h; exact absurd h (by simp)))
    · rintro ⟨rc, bb'⟩ w1 ⟨f1, _, _, k3, k4⟩
      have hrc : rc = 0 := k4 hnf hdir
      subst hrc
      have hfs : w1.fs = flushFS bb [] w.fs := (k3 rfl).2 (by rw [hnf]; intro i n; simp [noFaults])
      have hh := flushFS_header bb [] w.fs
      have hv2 := flushFS_attr bb [] w.fs
      have hv1 := flushFS_other bb [] w.fs (fileKey bb.basename .attr) (fileKey_ne (by simp)) (fileKey_ne (by simp))
      rw [hd, if_pos rfl, ← hfs] at hh
      rw [ha, ← hfs] at hv2
      rw [← hfs] at hv1
      simp only [Bool.false_eq_true, if_false] at hv2
      have hp : parseHeader (w1.fs.bytes (fileKey bb.basename .header)) = .err := by
        unfold FS.bytes
        rw [hh]
        exact parseHeader_tooMany bb h hn
      simp only [ne_eq, not_true_eq_false, if_false]
      rw [wpc_pure, wpc_bind]
      apply wpc_mono (wpc_blockOpen_nf (f1.trans hnf) hlen hmeta (by rw [readsV1_congr hv1]; exact h1)
        (by rw [readsV2_congr hv2]; exact h2) (by intro _; rw [hp]; simp))
      · rintro r w2 ⟨_, _, (⟨rfl, _⟩ | ⟨_, _, _, _, _, _, k, _⟩)⟩
        · rfl
        · rw [hp] at k; exact absurd k (by simp)
      · intro _ h; exact h
    · rintro w1 ⟨h, _⟩
      exact absurd hnf h
  obtain ⟨a, w', h1, rfl⟩ := wpc_returns key (fun _ h => h)
  exact ⟨w', h1⟩

/-- A block with `n` empty files. -/
def exMany (n : Nat) : Block :=
  ⟨b!"<i4", 1, b!"d/x", 0, List.replicate n 0, List.replicate (n + 1) 0, List.replicate n 0, n, exB.attrset, true⟩

theorem exMany_wide : WideHeader (exMany 16777217) := by
  refine ⟨exB_good.dt, by decide, by decide, List.length_replicate, List.length_replicate, ?_, ?_, ?_⟩
  · show 16777217 < 2147483646; omega
  · intro s hs; have := (List.mem_replicate.mp hs).2; omega
  · intro s hs; have := (List.mem_replicate.mp hs).2; omega

theorem exAttrsSay : AttrsSay exEnv exW.fs b!"d/x" AttrMap.empty := by
  have h1 : exW.fs.node (fileKey b!"d/x" .attr) = none := by decide +kernel
  have h2 : exW.fs.node (fileKey b!"d/x" .attrV2) = some (.file []) := by decide +kernel
  refine ⟨{ attrsetCreate exEnv with dirty := false }, { attrsetCreate exEnv with dirty := false }, ?_, ?_,
    ⟨[], (attrsetCreate_inv exEnv).dirty false⟩, ((attrsetCreate_inv exEnv).dirty false).view_eq⟩
  · unfold readsV1
    rw [h1]
    rfl
  · unfold readsV2 FS.bytes
    rw [h2]
    rfl

example : ∃ w', closeOpen exEnv (exMany 16777217) exW = .ok (0, -1, none) w' :=
  C11_too_many exEnv (exMany 16777217) exW AttrMap.empty exW_nf exMany_wide
    (by show 16777216 < 16777217; omega) rfl rfl exDir exAttrsSay (by decide) (by decide)

theorem exB_savable : Savable exEnv exB :=
  ⟨exFmt, exB_good, rfl, rfl, ⟨[], (attrsetCreate_inv exEnv).dirty false⟩, by
    intro name v h
    rw [show attrView exEnv.m exB.attrset = findE [] from ((attrsetCreate_inv exEnv).dirty false).view_eq] at h
    exact absurd h (by simp [findE_nil, AttrMap.empty]), by decide, by decide⟩

theorem exB_synced : Synced exEnv exW.fs exB := by
  refine ⟨fun _ => ⟨by decide +kernel, ?_⟩, fun _ => ?_⟩
  · have : exW.fs.bytes (fileKey exB.basename .header) = headerText exB := by decide +kernel
    rw [this, parseHeader_headerText exB exB_good]
  · rw [show attrView exEnv.m exB.attrset = findE [] from ((attrsetCreate_inv exEnv).dirty false).view_eq]
    exact exAttrsSay

/-- The same block after a grow by one file of four rows and some writes. -/
def exB2 : Block :=
  ⟨b!"<i4", 1, b!"d/x", 9, [2, 0, 3, 4], [0, 2, 2, 5, 9], [11, 0, 4294967295, 7], 4, exB.attrset, true⟩

theorem exB2_savable : Savable exEnv exB2 :=
  ⟨exFmt, ⟨exB_good.dt, by decide, by decide, by decide, by decide, by decide, by decide, by decide⟩, by decide,
    by decide, exB_savable.attrs, exB_savable.storable, by decide, by decide⟩

theorem exB2_synced : Synced exEnv exW.fs exB2 :=
  ⟨fun h => absurd h (by decide), exB_synced.attrs⟩

example : ∃ b w', closeOpen exEnv exB2 exW = .ok (0, 0, some b) w' ∧ SameShape exB2 b ∧
    b.fchecksum = exB2.fchecksum :=
  C11_reopen_partial exEnv exB2 exW exW_nf exB2_savable exDir (fun h => absurd h (by decide)) exB2_synced

/-! ## C13 -/

theorem scanLines_ok (nfile : Nat) : ∀ (n : Nat) (s : CStr) (fsize fck fsize' fck' : List Nat),
    scanLines nfile n s fsize fck = .ok fsize' fck' →
    fsize'.length = fsize.length ∧ fck'.length = fck.length ∧
      ((∀ x ∈ fsize, x < 18446744073709551616) → ∀ x ∈ fsize', x < 18446744073709551616) ∧
      ((∀ x ∈ fck, x < 4294967296) → ∀ x ∈ fck', x < 4294967296) := by
  intro n
  induction n with
  | zero =>
    intro s fsize fck fsize' fck' h
    simp only [scanLines, LinesRes.ok.injEq] at h
    obtain ⟨rfl, rfl⟩ := h
    exact ⟨rfl, rfl, fun h => h, fun h => h⟩
  | succ n ih =>
    intro s fsize fck fsize' fck' h
    rw [scanLines] at h
    cases hl : scanLine s with
    | none => rw [hl] at h; exact absurd h (by simp)
    | some q =>
      obtain ⟨fid, size, ck, t⟩ := q
      rw [hl] at h
      simp only at h
      split at h
      · exact absurd h (by simp)
      split at h
      · exact absurd h (by simp)
      · obtain ⟨k1, k2, k3, k4⟩ := ih _ _ _ _ _ h
        rw [List.length_set] at k1 k2
        have hrange : size < 18446744073709551616 ∧ ck < 4294967296 := by
          unfold scanLine at hl
          simp only [Option.bind_eq_bind, Option.bind_eq_some_iff, Option.pure_def, Option.some.injEq,
            Prod.mk.injEq] at hl
          obtain ⟨⟨f0, s0⟩, _, s1, _, ⟨sz, s2⟩, hsz, s3, _, ⟨c, s4⟩, hc, s5, _, ⟨c2, s6⟩, _, _, rfl, rfl, _⟩ := hl
          constructor
          · unfold scanPtrdiff at hsz
            split at hsz
            · injection hsz with hsz
              injection hsz with hsz _
              rw [← hsz]
              unfold u64
              omega
            · exact absurd hsz (by simp)
          · unfold scanUInt at hc
            split at hc
            · injection hc with hc
              injection hc with hc _
              rw [← hc]
              unfold u32
              omega
            · exact absurd hc (by simp)
        refine ⟨k1, k2, fun h => k3 ?_, fun h => k4 ?_⟩
        · intro x hx
          rcases List.mem_or_eq_of_mem_set hx with hx | rfl
          · exact h x hx
          · exact hrange.1
        · intro x hx
          rcases List.mem_or_eq_of_mem_set hx with hx | rfl
          · exact h x hx
          · exact hrange.2

/-- The header's `DTYPE` token does not fit the eight bytes it is read into. -/
def LongDtype (txt : CStr) : Prop :=
  ∃ s tok rest, scanLit b!" DTYPE: " txt = some s ∧ scanStr s = some (tok, rest) ∧ 8 ≤ tok.length

/-- A header that is accepted describes a sensible block. -/
theorem parseHeader_ok {txt dt : CStr} {nm : Int} {nf : Nat} {fsize fck : List Nat}
    (h : parseHeader txt = .ok dt nm nf fsize fck) :
    dtypeIsValid dt = true ∧ dt.length < 8 ∧ 0 ≤ nm ∧ fsize.length = nf ∧ fck.length = nf ∧ nf < 2147483646 ∧
      (∀ x ∈ fsize, x < 18446744073709551616) ∧ (∀ x ∈ fck, x < 4294967296) := by
  unfold parseHeader at h
  split at h
  · exact absurd h (by simp)
  · split at h
    · exact absurd h (by simp)
    · rename_i tok s _
      split at h
      · exact absurd h (by simp)
      · rename_i htok
        dsimp only at h
        split at h
        · exact absurd h (by simp)
        · rename_i nmemb nfile s' _
          split at h
          · exact absurd h (by simp)
          · rename_i hnf
            split at h
            · exact absurd h (by simp)
            · rename_i hnm
              split at h
              · exact absurd h (by simp)
              · rename_i hv
                split at h
                · exact absurd h (by simp)
                · exact absurd h (by simp)
                · rename_i fs ck hsl
                  injection h with e1 e2 e3 e4 e5
                  subst e1 e2 e3 e4 e5
                  obtain ⟨k1, k2, k3, k4⟩ := scanLines_ok _ _ _ _ _ _ _ hsl
                  have hlen := (List.takeWhile_sublist (fun x => decide (x ≠ (0 : Byte))) (l := tok)).length_le
                  refine ⟨by simpa using hv, by omega, by omega, by simpa using k1, by simpa using k2, by omega,
                    k3 ?_, k4 ?_⟩
                  · intro x hx; have := (List.mem_replicate.mp hx).2; omega
                  · intro x hx; have := (List.mem_replicate.mp hx).2; omega

/-- No line of a header is stored outside the arrays. -/
theorem scanLines_no_ub (nfile : Nat) : ∀ (n : Nat) (s : CStr) (fsize fck : List Nat),
    fsize.length = nfile → fck.length = nfile → scanLines nfile n s fsize fck ≠ .ub := by
  intro n
  induction n with
  | zero => intro s fsize fck _ _ h; simp [scanLines] at h
  | succ n ih =>
    intro s fsize fck h1 h2 h
    rw [scanLines] at h
    cases hl : scanLine s with
    | none => rw [hl] at h; exact absurd h (by simp)
    | some q =>
      obtain ⟨fid, size, ck, t⟩ := q
      rw [hl] at h
      simp only at h
      split at h
      · exact absurd h (by simp)
      · rw [if_neg (by omega)] at h
        exact ih _ _ _ (by simpa using h1) (by simpa using h2) h

theorem parseHeader_ub {txt : CStr} (h : parseHeader txt = .ub) : LongDtype txt := by
  unfold parseHeader at h
  split at h
  · exact absurd h (by simp)
  · rename_i s hs
    split at h
    · exact absurd h (by simp)
    · rename_i tok s' hs'
      split at h
      · rename_i hl
        exact ⟨s, tok, s', hs, hs', hl⟩
      · dsimp only at h
        repeat' split at h
        all_goals first
          | (cases h; done)
          | rename_i hsl; exact absurd hsl (scanLines_no_ub _ _ _ _ _ (by simp) (by simp))

/-- An internally consistent handle: the dtype is valid and elements have a positive size, there is one
size and one checksum per file, the offsets are the running sums of the sizes and the size is the last
one. If the sizes do not add up to 2^63 or more, the handle satisfies `Layout`. -/
structure Consistent (m : Machine) (b : Block) : Prop where
  dtype : dtypeIsValid b.dtype = true
  item : 0 < itemsize m b.dtype ∧ itemsize m b.dtype ≤ 16
  nmemb : 0 ≤ b.nmemb
  nfile : b.fsize.length = b.nfile
  nck : b.fchecksum.length = b.nfile
  offsets : b.foffset = runningSums 0 b.fsize
  size : b.size = b.foffset.getLastD 0
  layout : b.fsize.sum < 9223372036854775808 → Layout b

theorem openedBlock_consistent (m : Machine) {txt base dt : CStr} {nm : Int} {nf : Nat} {fsize fck : List Nat}
    {s : AttrSet} (h : parseHeader txt = .ok dt nm nf fsize fck) :
    Consistent m (openedBlock base dt nm nf fsize fck s) := by
  obtain ⟨h1, h2, h3, h4, h5, _, h7, h8⟩ := parseHeader_ok h
  refine ⟨h1, valid_item m dt h1 h2, h3, h4, h5, rfl, rfl, fun hs => ?_⟩
  have hs : fsize.sum < 9223372036854775808 := hs
  refine ⟨h4, h5, ?_, ?_, hs, h8⟩
  · show runningSums 0 fsize = _
    rw [runningSums_eq fsize 0 (by omega)]
    show _ = (List.range (nf + 1)).map (start fsize)
    rw [h4]
    apply List.map_congr_left
    intro f _
    simp [start]
  · show (runningSums 0 fsize).getLastD 0 = fsize.sum
    exact runningSums_last fsize (by omega)

/-- **C13** (partial: unless the `DTYPE` token has eight bytes or more, see `C13_overflow`). Whatever
bytes the header holds, opening returns 0 or -1 and changes nothing; if it returns 0 the handle is
consistent. -/
theorem C13_open_validates_partial (env : Env) (base : CStr) (w : World) (M : AttrMap) (hnf : w.faults = noFaults)
    (hlen : base.length ≤ 8192) (hmeta : isMeta base = false) (hat : AttrsSay env w.fs base M)
    (htok : ¬ LongDtype (w.fs.bytes (fileKey base .header))) :
    ∃ rc r w', blockOpen env base w = .ok (rc, r) w' ∧ w'.fs = w.fs ∧
      (rc = -1 ∧ r = none ∨ rc = 0 ∧ ∃ b, r = some b ∧ Consistent env.m b ∧ attrView env.m b.attrset = M) := by
  obtain ⟨s1, s2, h1, h2, _, h4⟩ := hat
  have key := wpc_blockOpen_nf (C := fun _ => False) hnf hlen hmeta h1 h2
    (fun _ h => htok (parseHeader_ub h))
  obtain ⟨⟨rc, r⟩, w', k1, k2, _, k3⟩ := wpc_returns key (fun _ h => h)
  refine ⟨rc, r, w', k1, k2, ?_⟩
  rcases k3 with ⟨k3, _⟩ | ⟨_, dt, nm, nf, fsize, fck, k4, k5⟩
  · injection k3 with e1 e2
    exact Or.inl ⟨e1, e2⟩
  · injection k5 with e1 e2
    exact Or.inr ⟨e1, _, e2, openedBlock_consistent env.m k4, h4⟩

/-- The example's world with other contents of the header. -/
def exHeaderW (txt : CStr) : World := { exW with fs := exW.fs.set (fileKey b!"d/x" .header) (.file txt) }

/-- **C13 is false**: a longer `DTYPE` token overflows a buffer on the stack. -/
theorem C13_overflow : (blockOpen exEnv b!"d/x" (exHeaderW b!"DTYPE: <i400000\nNMEMB: 1\nNFILE: 0\n")).isUb = true := by
  decide +kernel

/-- Garbage is rejected, negative counts are rejected, a sensible header is accepted. -/
example : ((blockOpen exEnv b!"d/x" (exHeaderW b!"hello")).val?.map (·.1)) = some (-1) ∧
    ((blockOpen exEnv b!"d/x" (exHeaderW b!"DTYPE: <i4 NMEMB: -1 NFILE: 0")).val?.map (·.1)) = some (-1) ∧
    ((blockOpen exEnv b!"d/x" (exHeaderW b!"DTYPE: <i4 NMEMB: 2 NFILE: 1 0: 7 : 1 : 1")).val?.map (·.1)) = some 0 := by
  decide +kernel

example : ∃ rc r w', blockOpen exEnv b!"d/x" exW = .ok (rc, r) w' ∧ w'.fs = exW.fs ∧
      (rc = -1 ∧ r = none ∨ rc = 0 ∧ ∃ b, r = some b ∧ Consistent exEnv.m b ∧
        attrView exEnv.m b.attrset = AttrMap.empty) := by
  apply C13_open_validates_partial exEnv b!"d/x" exW AttrMap.empty exW_nf (by decide) (by decide) exAttrsSay
  rintro ⟨s, tok, rest, h1, h2, h3⟩
  have e : ((scanLit b!" DTYPE: " (exW.fs.bytes (fileKey b!"d/x" .header))).bind scanStr).map (·.1) = some b!"<i4" := by
    decide +kernel
  rw [h1, Option.bind_some, h2] at e
  simp only [Option.map_some, Option.some.injEq] at e
  rw [e] at h3
  exact absurd h3 (by decide)

/-! ## C14 -/

/-- Every returned value satisfies `P`. -/
def Gives {α : Type} (m : M α) (P : α → Prop) : Prop := ∀ w a w', m w = .ok a w' → P a

theorem gives_bind {α β : Type} {m : M α} {f : α → M β} {P : β → Prop} {R : α → Prop} (h : Gives m R)
    (hf : ∀ a, R a → Gives (f a) P) : Gives (m >>= f) P := by
  intro w b w' he
  have he : M.bind m f w = .ok b w' := he
  unfold M.bind at he
  cases hm : m w with
  | ok a w1 => rw [hm] at he; exact hf a (h w a w1 hm) w1 b w' he
  | crash w1 => rw [hm] at he; exact absurd he (by simp)
  | ub => rw [hm] at he; exact absurd he (by simp)
  | hang => rw [hm] at he; exact absurd he (by simp)

theorem gives_any {α : Type} (m : M α) : Gives m (fun _ => True) := fun _ _ _ _ => trivial

theorem gives_pure {α : Type} {a : α} {P : α → Prop} (h : P a) : Gives (pure a : M α) P := by
  intro w b w' he
  injection he with e _
  exact e ▸ h

theorem gives_ite {α : Type} {p : Prop} [Decidable p] {a b : M α} {P : α → Prop} (ha : p → Gives a P)
    (hb : ¬p → Gives b P) : Gives (if p then a else b) P := by
  split
  · exact ha (by assumption)
  · exact hb (by assumption)

theorem gives_ub {α : Type} (P : α → Prop) : Gives (M.ub : M α) P := by
  intro w a w' h; exact absurd h (by simp [M.ub])

theorem gives_readV2 (env : Env) (s : AttrSet) (base : CStr) :
    Gives (readAttrsV2 env s base) (fun r => r.2.dirty = false) := by
  unfold readAttrsV2
  refine gives_bind (gives_any _) fun b _ => ?_
  refine gives_ite (fun _ => ?_) (fun _ => gives_pure rfl)
  refine gives_bind (gives_any _) fun fs _ => ?_
  refine gives_bind (gives_any _) fun bs _ => ?_
  refine gives_ite (fun _ => gives_pure rfl) (fun _ => ?_)
  refine gives_bind (gives_any _) fun r _ => ?_
  exact gives_pure rfl

/-- An opened handle is clean. -/
theorem gives_blockOpen (env : Env) (base : CStr) : Gives (blockOpen env base) (fun r => ∀ b, r.2 = some b →
    b.dirty = false ∧ b.attrset.dirty = false) := by
  unfold blockOpen
  refine gives_bind (gives_any _) fun r _ => ?_
  refine gives_ite (fun _ => gives_pure (by simp)) (fun _ => ?_)
  refine gives_bind (gives_readV2 _ _ _) fun r hr => ?_
  refine gives_ite (fun _ => gives_pure (by simp)) (fun _ => ?_)
  refine gives_ite (fun _ => ?_) (fun _ => gives_pure ?_)
  · refine gives_bind (gives_any _) fun b _ => ?_
    refine gives_ite (fun _ => ?_) (fun _ => gives_pure (by simp))
    refine gives_bind (gives_any _) fun fs _ => ?_
    refine gives_bind (gives_any _) fun txt _ => ?_
    split
    · exact gives_pure (by simp)
    · exact gives_ub _
    · refine gives_pure ?_
      intro b hb
      injection hb with hb
      subst hb
      exact ⟨rfl, hr⟩
  · intro b hb
    injection hb with hb
    subst hb
    exact ⟨rfl, hr⟩

/-- Flushing a clean handle does nothing. -/
theorem blockFlush_clean (env : Env) (b : Block) (h1 : b.dirty = false) (h2 : b.attrset.dirty = false) :
    blockFlush env b = pure (0, b) := by
  funext w
  show M.bind (flushHeader b) _ w = _
  have : flushHeader b = pure (true, b) := by unfold flushHeader; rw [if_neg (by simp [h1])]
  unfold M.bind
  rw [this]
  show (if (!true) = true then _ else if b.attrset.dirty = true then _ else pure (0, b) : M (Int × Block)) w = _
  simp [h2]

/-- Close what was opened. -/
def closeOpt (env : Env) : Int × Option Block → M (Int × Int)
  | (rc, none) => pure (rc, 0)
  | (rc, some b) => do
    let rc2 ← blockClose env b
    pure (rc, rc2)

/-- Open a block and close it. -/
def openClose (env : Env) (base : CStr) : M (Int × Int) := do
  let r ← blockOpen env base
  closeOpt env r

/-- **C14**, first half. Opening a block and closing it changes nothing on disk, whatever is on disk, even
if operations fail or the process is killed. -/
theorem C14_open_close (env : Env) (base : CStr) : Keeps (openClose env base) := by
  intro w
  have h1 := keeps_blockOpen env base w
  have h2 := gives_blockOpen env base w
  have ho : openClose env base w = M.bind (blockOpen env base) (closeOpt env) w := rfl
  rw [ho]
  unfold M.bind
  cases hm : blockOpen env base w with
  | ok r w1 =>
    rw [hm] at h1
    simp only at h1 ⊢
    obtain ⟨rc, o⟩ := r
    cases o with
    | none => exact h1
    | some b =>
      obtain ⟨d1, d2⟩ := h2 _ w1 hm b rfl
      have : blockClose env b = pure 0 := by
        unfold blockClose
        rw [blockFlush_clean env b d1 d2]
        rfl
      have hc : closeOpt env (rc, some b) = (blockClose env b >>= fun rc2 => pure (rc, rc2)) := rfl
      rw [hc, this]
      exact h1
  | crash w1 => rw [hm] at h1; exact h1
  | ub => trivial
  | hang => trivial

theorem gives_flushHeader (b : Block) : Gives (flushHeader b) (fun r => r.1 = true →
    r.2.dirty = false ∧ r.2.attrset = b.attrset) := by
  unfold flushHeader
  refine gives_ite (fun _ => ?_) (fun h => gives_pure (fun _ => ⟨by simpa using h, rfl⟩))
  refine gives_bind (gives_any _) fun x _ => ?_
  refine gives_ite (fun _ => ?_) (fun _ => gives_pure (by simp))
  refine gives_bind (gives_any _) fun y _ => ?_
  exact gives_ite (fun _ => gives_pure (fun _ => ⟨rfl, rfl⟩)) (fun _ => gives_pure (by simp))

/-- A successful flush leaves a clean handle. -/
theorem gives_blockFlush (env : Env) (b : Block) : Gives (blockFlush env b) (fun r => r.1 = 0 →
    r.2.dirty = false ∧ r.2.attrset.dirty = false) := by
  unfold blockFlush
  refine gives_bind (gives_flushHeader b) fun r hr => ?_
  refine gives_ite (fun _ => gives_pure (by simp)) (fun hok => ?_)
  have hok : r.1 = true := by simpa using hok
  refine gives_ite (fun _ => ?_) (fun hd => gives_pure (fun _ => ⟨(hr hok).1, by simpa using hd⟩))
  refine gives_bind (gives_any _) fun x _ => ?_
  refine gives_ite (fun _ => gives_pure (by simp)) (fun _ => gives_pure (fun _ => ⟨(hr hok).1, rfl⟩))

/-- **C14**, second half. After a flush that returned 0, another one returns 0 and touches neither the
disk nor the handle. -/
theorem C14_flush_twice (env : Env) (b b' : Block) (w w' : World) (h : blockFlush env b w = .ok (0, b') w')
    (w2 : World) : blockFlush env b' w2 = .ok (0, b') w2 := by
  obtain ⟨h1, h2⟩ := gives_blockFlush env b w _ w' h rfl
  rw [blockFlush_clean env b' h1 h2]
  rfl

/-- Both apply to the example: its flush writes the header. -/
example : ((blockFlush exEnv exB2 exW).val?.map (·.1)) = some 0 ∧
    (blockFlush exEnv exB2 exW).fs?.map (fun fs => fs.bytes (fileKey b!"d/x" .header)) = some (headerText exB2) ∧
    ((openClose exEnv b!"d/x" exW).val?) = some (0, 0) := by decide +kernel

/-! ## C15 -/

/-- What a flush of `bb` may have done to the disk, `txt` being the new text of the attribute file:
nothing but the header and the attribute file can have changed, and each of them, if it was to be
rewritten, is a beginning of the new text. -/
structure FlushMay (bb : Block) (txt : CStr) (fs fs' : FS) : Prop where
  other : ∀ k, k ≠ fileKey bb.basename .header → k ≠ fileKey bb.basename .attrV2 → fs'.node k = fs.node k
  header : fs'.node (fileKey bb.basename .header) = fs.node (fileKey bb.basename .header) ∨
    bb.dirty = true ∧ ∃ n, fs'.node (fileKey bb.basename .header) = some (.file ((headerText bb).take n))
  attr : fs'.node (fileKey bb.basename .attrV2) = fs.node (fileKey bb.basename .attrV2) ∨
    bb.attrset.dirty = true ∧ ∃ n, fs'.node (fileKey bb.basename .attrV2) = some (.file (txt.take n))

theorem FlushOut.may {bb : Block} {txt : CStr} {fs fs' : FS} (h : FlushOut bb txt fs fs') : FlushMay bb txt fs fs' := by
  have hne : fileKey bb.basename .header ≠ fileKey bb.basename .attrV2 := fileKey_ne (by simp)
  obtain ⟨fs1, h1, h2⟩ := h
  refine ⟨?_, ?_, ?_⟩
  · intro k k1 k2
    have e1 : fs1.node k = fs.node k := by
      rcases h1 with rfl | ⟨_, n, rfl⟩
      · rfl
      · exact FS.set_other _ _ _ _ k1
    rcases h2 with rfl | ⟨_, n, rfl⟩
    · exact e1
    · rw [FS.set_other _ _ _ _ k2]; exact e1
  · have e2 : fs'.node (fileKey bb.basename .header) = fs1.node (fileKey bb.basename .header) := by
      rcases h2 with rfl | ⟨_, n, rfl⟩
      · rfl
      · exact FS.set_other _ _ _ _ hne
    rw [e2]
    rcases h1 with rfl | ⟨d, n, rfl⟩
    · exact Or.inl rfl
    · exact Or.inr ⟨d, n, FS.set_node _ _ _⟩
  · rcases h2 with rfl | ⟨d, n, rfl⟩
    · left
      rcases h1 with rfl | ⟨_, n, rfl⟩
      · rfl
      · exact FS.set_other _ _ _ _ hne.symm
    · exact Or.inr ⟨d, n, FS.set_node _ _ _⟩

/-- The whole text, once in the attribute file, says that the attributes are `M`. -/
def TextSays (env : Env) (base txt : CStr) (M : AttrMap) : Prop := ∀ fs, OldOk env fs base M →
  fs.node (fileKey base .attrV2) = some (.file txt) → AttrsSay env fs base M

/-- **C15** (partial: a crash can leave a truncated header, see `C15_torn`). However a flush ends (success,
failure, killed at any point), data files and all other files are untouched, and the header and the
attribute file are what they were or a beginning of their new text; the complete new texts say what the
handle says. -/
theorem C15_flush_may_partial (env : Env) (bb : Block) (w : World) (hsv : Savable env bb) :
    ∃ txt, parseHeader (headerText bb) = .ok bb.dtype bb.nmemb bb.nfile bb.fsize bb.fchecksum ∧
      TextSays env bb.basename txt (attrView env.m bb.attrset) ∧
      wpc (blockFlush env bb) w (fun _ w' => FlushMay bb txt w.fs w'.fs) (fun w' => FlushMay bb txt w.fs w'.fs) := by
  obtain ⟨es, hi⟩ := hsv.attrs
  have hst : ∀ e ∈ es, Storable e.name e.val := by
    apply findE_of_mem_or _ hi.sorted
    rw [← hi.view_eq]; exact hsv.storable
  obtain ⟨txt, buf, es1, k1, _, _, _, k5, k6⟩ :=
    attrLines_spec hsv.fmt es (hi.dirty false) (fun e he => he) hi.sorted hst
  refine ⟨txt, parseHeader_headerText bb hsv.header, ?_, ?_⟩
  · intro fs hold hfile
    rw [hi.view_eq] at hold ⊢
    exact attrsSay_text hi.sorted k5 k6 hold hfile
  · have e : attrLines env bb.attrset.list { bb.attrset with dirty := false } =
      attrLines env (es.map (Entry.attr bb.attrset.base)) { bb.attrset with dirty := false } :=
        congrArg (fun l => attrLines env l { bb.attrset with dirty := false }) hi.list
    apply wpc_mono (wpc_blockFlush env bb txt _ w (fun _ => e.trans k1))
    · rintro r w' h; exact FlushOut.may h.2.1
    · rintro w' h; exact FlushOut.may h.2

/-- The process is killed while the header is being written, after three bytes. -/
def exCrashW : World := { exW with faults := fun i => if i = 1 then .crash 3 else .none }

/-- **C15 is false**: after a crash while the header is rewritten the block cannot be opened any more, and
the old header is gone. -/
theorem C15_torn :
    (blockFlush exEnv exB2 exCrashW).crashed = true ∧
    (blockFlush exEnv exB2 exCrashW).fs?.map (fun fs => fs.bytes (fileKey b!"d/x" .header)) = some b!"DTY" ∧
    (blockOpen exEnv b!"d/x" { (blockFlush exEnv exB2 exCrashW).world exW with faults := noFaults }).val?.map (·.1) =
      some (-1) ∧
    (blockOpen exEnv b!"d/x" exW).val?.map (·.1) = some 0 := by decide +kernel

example : Savable exEnv exB2 := exB2_savable

/-! ## C16 -/

/-- **C16** (partial: no write is lost silently, see `C16_silent`). Whatever operations fail, a flush that
returns 0 has stored the metadata: the header file says what the handle says, and so do the attribute
files. -/
theorem C16_flush_stored_partial (env : Env) (bb : Block) (w : World) (hns : NoSilent w.faults)
    (hsv : Savable env bb)
    (hold : bb.attrset.dirty = true → OldOk env w.fs bb.basename (attrView env.m bb.attrset))
    (hsync : Synced env w.fs bb) :
    wpc (blockFlush env bb) w
      (fun r w' => (r.1 = 0 ∨ r.1 = -1) ∧ (r.1 = 0 → HeaderSays w'.fs bb ∧
        AttrsSay env w'.fs bb.basename (attrView env.m bb.attrset)))
      (fun _ => True) := by
  obtain ⟨es, hi⟩ := hsv.attrs
  rw [hi.view_eq] at hold ⊢
  obtain ⟨txt, s1, hl, _, hh, ha⟩ := flushFS_says hsv hi hold hsync
  apply wpc_mono (wpc_blockFlush env bb txt s1 w hl)
  · rintro r w' ⟨_, _, k3, k4, _⟩
    refine ⟨k3, fun h0 => ?_⟩
    rw [(k4 h0).2 hns]
    exact ⟨hh, ha⟩
  · intro _ _; trivial

/-- The disk is full: the buffered header is lost when the stream is closed. -/
def exSilentW : World := { exW with faults := fun i => if i = 1 then .silent 0 else .none }

/-- **C16 is false**: the result of `fclose` is not looked at, so a flush can return 0 although the header
is empty. -/
theorem C16_silent :
    (blockFlush exEnv exB2 exSilentW).val?.map (·.1) = some 0 ∧
    (blockFlush exEnv exB2 exSilentW).fs?.map (fun fs => fs.bytes (fileKey b!"d/x" .header)) = some [] ∧
    (blockOpen exEnv b!"d/x" { (blockFlush exEnv exB2 exSilentW).world exW with faults := noFaults }).val?.map (·.1) =
      some (-1) := by decide +kernel

/-- A fault pattern in which the second operation fails. -/
def exFail : Nat → Fault := fun i => if i = 1 then .fail else .none

theorem exFail_noSilent : NoSilent exFail := by
  intro i n
  unfold exFail
  split <;> simp

example : (blockFlush exEnv exB2 ⟨exW.fs, exFail, 0⟩).val?.map (·.1) = some (-1) := by decide +kernel

example := C16_flush_stored_partial exEnv exB2 ⟨exW.fs, exFail, 0⟩ exFail_noSilent exB2_savable
    (fun h => absurd h (by decide)) exB2_synced

end Verif
