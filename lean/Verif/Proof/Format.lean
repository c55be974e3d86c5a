import Verif.Proof.Holes
import Verif.Proof.PythonMay
import Verif.Spec.Format
/-!
# The files of a block
-/

set_option autoImplicit false

namespace Verif

open Spec

variable {env : Env} {K : Kind} {bb : Block} {H : Holey} {w : World}

/-- The last `k` hexadecimal digits. -/
def padHex : Nat → Nat → CStr
  | 0, _ => []
  | k + 1, n => padHex k (n / 16) ++ [digitChar (n % 16)]

theorem padHex_zero (k : Nat) : padHex k 0 = List.replicate k 48 := by
  induction k with
  | zero => rfl
  | succ k ih =>
    rw [List.replicate_succ']
    show padHex k (0 / 16) ++ [digitChar (0 % 16)] = _
    rw [Nat.zero_div, ih]
    rfl

theorem padHex_digits : ∀ (k fuel n : Nat), n ≤ fuel → (digitsAux 16 fuel n).length ≤ k →
    List.replicate (k - (digitsAux 16 fuel n).length) 48 ++ digitsAux 16 fuel n = padHex k n := by
  intro k
  induction k with
  | zero =>
    intro fuel n _ hk
    exact absurd (List.length_eq_zero_iff.mp (Nat.le_zero.mp hk)) (digitsAux_ne_nil 16 fuel n)
  | succ k ih =>
    intro fuel n hn hk
    have small : n < 16 → digitsAux 16 fuel n = [digitChar n] → List.replicate (k + 1 - (digitsAux 16 fuel n).length) 48 ++
        digitsAux 16 fuel n = padHex (k + 1) n := by
      intro h16 h1
      rw [h1]
      show _ = padHex k (n / 16) ++ [digitChar (n % 16)]
      rw [Nat.div_eq_of_lt h16, Nat.mod_eq_of_lt h16, padHex_zero]
      rfl
    cases fuel with
    | zero =>
      have : n = 0 := by omega
      subst this
      exact small (by decide) rfl
    | succ fuel =>
      by_cases h16 : n < 16
      · exact small h16 (by simp only [digitsAux]; rw [if_pos h16])
      · have e : digitsAux 16 (fuel + 1) n = digitsAux 16 fuel (n / 16) ++ [digitChar (n % 16)] := by
          simp only [digitsAux]; rw [if_neg h16]
        rw [e] at hk ⊢
        rw [List.length_append, List.length_singleton] at hk ⊢
        have := ih fuel (n / 16) (by omega) (by omega)
        rw [← List.append_assoc, show k + 1 - ((digitsAux 16 fuel (n / 16)).length + 1) = k - (digitsAux 16 fuel (n / 16)).length by omega, this]
        rfl

theorem sixHex_eq (n : Nat) (h : n < 16777216) : sixHex n = hex6Str n := by
  have hl : (digitsAux 16 n n).length ≤ 6 := digitsAux_length 16 (by omega) n n 6 (by omega) (by omega)
  have hp := padHex_digits 6 n n (Nat.le_refl _) hl
  have hc : ∀ d, hexChar d = digitChar d := by
    intro d
    unfold hexChar digitChar
    split <;> rfl
  show _ = List.replicate (6 - (digitsAux 16 n n).length) 48 ++ digitsAux 16 n n
  rw [hp]
  unfold sixHex
  simp only [padHex, List.map, hc, Nat.div_div_eq_div_mul, List.nil_append, List.cons_append]

/-- The lines of the header. -/
theorem headerLines_eq : ∀ (sizes cks : List Nat) (i : Nat), cks.length = sizes.length → (∀ s ∈ sizes, s < 9223372036854775808) →
    (∀ c ∈ cks, c < 4294967296) → i + sizes.length ≤ 16777216 →
    headerLines i sizes cks = ((List.range sizes.length).map fun f => fileLine (i + f) (sizes.getD f 0) (cks.getD f 0)).flatten := by
  intro sizes
  induction sizes with
  | nil => intro cks i _ _ _ _; cases cks <;> rfl
  | cons s sizes ih =>
    intro cks i hl hs hc hi
    cases cks with
    | nil => cases hl
    | cons c cks =>
      have hline : headerLine i s c = fileLine i s c := by
        have hs' := hs s (by simp)
        have hc' := hc c (by simp)
        unfold headerLine fileLine
        rw [sixHex_eq i (by simp only [List.length_cons] at hi; omega)]
        have e1 : intStr (i64 s) = decStr s := by
          have : i64 (s : Int) = s := by unfold i64; dsimp only; split <;> omega
          rw [this]
          unfold intStr
          rw [if_neg (by omega)]
          rfl
        have e2 : sysvReduce c = foldSum c := by
          unfold sysvReduce foldSum
          rw [Nat.mod_eq_of_lt hc']
        rw [e1, e2]
      simp only [List.length_cons] at hi hl ⊢
      rw [List.range_succ_eq_map, List.map_cons, List.flatten_cons, List.map_map]
      show headerLine i s c ++ headerLines (i + 1) sizes cks = _
      rw [ih cks (i + 1) (by omega) (fun x hx => hs x (by simp [hx])) (fun x hx => hc x (by simp [hx])) (by omega), hline]
      congr 1
      congr 1
      apply List.map_congr_left
      intro f _
      simp only [Function.comp_apply, List.getD_cons_succ]
      rw [show i + 1 + f = i + (f + 1) by omega]

/-- Every data file has a whole number of rows, and not more than the handle says. -/
def FilesFit (m : Machine) (bb : Block) (fs : FS) : Prop :=
  ∀ f, (h : f < bb.fsize.length) → (fs.bytes (fileKey bb.basename (.data f))).length ≤ bb.fsize[f] * rowSize m bb ∧
    rowSize m bb ∣ (fs.bytes (fileKey bb.basename (.data f))).length

/-- The header file is what the handle would write. -/
def HeaderIs (bb : Block) (fs : FS) : Prop :=
  bb.dirty = false → fs.node (fileKey bb.basename .header) = some (.file (headerText bb))

theorem putRows_dvd (m : Machine) (fs : FS) (p : Nat) (rows : Nat → List Byte) (n : Nat) (hR : 0 < rowSize m bb)
    (hl : ∀ i, i < n → (rows i).length = rowSize m bb) (f : Nat)
    (h0 : rowSize m bb ∣ (fs.bytes (fileKey bb.basename (.data f))).length) :
    rowSize m bb ∣ ((putRows m bb fs p rows n).bytes (fileKey bb.basename (.data f))).length := by
  induction n with
  | zero => exact h0
  | succ n ih =>
    have ih := ih (fun i hi => hl i (by omega))
    simp only [putRows]
    unfold putRow
    by_cases hk : rowFile bb (p + n) = f
    · rw [hk]
      by_cases hF : IsFile (putRows m bb fs p rows n) (fileKey bb.basename (.data f))
      · rw [bytes_writeFile_same _ _ _ _ hF]
        have hne : rows n ≠ [] := by
          intro h
          have := hl n (by omega)
          rw [h] at this
          simp at this
          omega
        rw [writeAt_length _ _ _ hne, hl n (by omega)]
        have hd : rowSize m bb ∣ rowOff m bb (p + n) + rowSize m bb := by
          unfold rowOff
          exact ⟨(locate bb.fsize (p + n)).2 + 1, by rw [Nat.mul_add, Nat.mul_one, Nat.mul_comm]⟩
        rcases Nat.le_total ((putRows m bb fs p rows n).bytes (fileKey bb.basename (.data f))).length
            (rowOff m bb (p + n) + rowSize m bb) with h | h
        · rw [Nat.max_eq_right h]; exact hd
        · rw [Nat.max_eq_left h]; exact ih
      · rw [writeFile_nofile _ _ _ _ hF]
        exact ih
    · rw [bytes_writeFile_other]
      · exact ih
      · exact dataKey_ne _ _ _ (fun e => hk e.symm)

theorem FilesFit.kept {m : Machine} {fs fs' : FS} {bb' : Block} (h : FilesFit m bb fs) (hb : bb'.basename = bb.basename)
    (hf : bb'.fsize = bb.fsize) (hr : rowSize m bb' = rowSize m bb)
    (hn : ∀ f, fs'.node (fileKey bb.basename (.data f)) = fs.node (fileKey bb.basename (.data f))) : FilesFit m bb' fs' := by
  intro f hlt
  have h1 : f < bb.fsize.length := by rw [← hf]; exact hlt
  have h2 : bb'.fsize[f] = bb.fsize[f] := by simp only [hf]
  rw [hb, hr, h2, bytes_congr (hn f)]
  exact h f h1

theorem FilesFit.step {bb' : Block} {w' : World} {x : BAns} {A : Content} (hh : Holds env K bb w.fs A) (h : FilesFit env.m bb w.fs) (op : BOp)
    (d : StepDone env K bb A w op x bb' w') (hl : A.legal env K op) : FilesFit env.m bb' w'.fs := by
  have hL := hh.ok.layout
  have hrs : rowSize env.m bb = K.w * K.nm := by
    unfold rowSize
    rw [hh.ok.item, hh.ok.memb]
    rfl
  have hrs' : rowSize env.m bb' = rowSize env.m bb := by
    rw [hrs]
    unfold rowSize
    rw [d.holds.ok.item, d.holds.ok.memb]
    rfl
  have hpos : 0 < rowSize env.m bb := by rw [hrs]; exact Nat.mul_pos hh.ok.item0 hh.ok.memb0
  cases op with
  | read p a mem sw => exact h.kept d.base d.sizes hrs' d.effect
  | attr op => exact h.kept d.base d.sizes hrs' d.effect
  | flush => exact h.kept d.base d.sizes hrs' d.effect
  | reopen => exact h.kept d.base d.sizes hrs' d.effect
  | write p a mem sw =>
    have hfs := d.effect
    simp only [DataEffect] at hfs
    have hf : bb'.fsize = bb.fsize := d.sizes
    by_cases hin : p + a.size / K.nm ≤ A.size
    · rw [if_pos hin] at hfs
      have hlen : ∀ i, i < a.size / K.nm → (arrayRow env K a mem sw i).length = rowSize env.m bb := by
        intro i hi
        obtain ⟨hp, ha, hdis, hconv⟩ := hl
        unfold arrayRow
        rw [hrs]
        refine rowOfElems_length _ K.w K.nm _ (fun e he => ?_) i hi
        obtain ⟨b, hb⟩ := Option.isSome_iff_exists.mp (hconv hin e he)
        simp only [hb, Option.getD_some]
        refine (ha.xferOk hh.ok).out_length mem e b ?_
        rw [hh.kind]
        exact hb
      intro f hlt
      have h1 : f < bb.fsize.length := by rw [← hf]; exact hlt
      have h2 : bb'.fsize[f] = bb.fsize[f] := by simp only [hf]
      rw [d.base, hrs', h2, hfs]
      exact ⟨putRows_length hL env.m w.fs p _ _ hlen (by rw [← hL.size, hh.size]; exact hin) f h1 hpos (h f h1).1,
        putRows_dvd env.m w.fs p _ _ hpos hlen f (h f h1).2⟩
    · rw [if_neg hin] at hfs
      exact h.kept d.base hf hrs' (fun f => by rw [hfs])
  | grow new =>
    have hfs : w'.fs = truncFS bb.basename bb.nfile new.length w.fs := d.effect
    have hf : bb'.fsize = bb.fsize ++ new := d.sizes
    intro f hlt
    rw [d.base, hrs']
    by_cases h1 : f < bb.fsize.length
    · have h2 : bb'.fsize[f] = bb.fsize[f] := by simp only [hf]; exact List.getElem_append_left h1
      have h3 : w'.fs.node (fileKey bb.basename (.data f)) = w.fs.node (fileKey bb.basename (.data f)) := by
        rw [hfs]
        refine truncFS_other _ _ _ _ _ (fun g h4 _ => fileKey_ne ?_)
        rw [hL.nfile] at h1
        simp
        omega
      rw [h2, bytes_congr h3]
      exact h f h1
    · have h3 : w'.fs.node (fileKey bb.basename (.data f)) = some (.file []) := by
        rw [hfs]
        refine truncFS_data _ _ _ _ _ (by rw [← hL.nfile]; omega) ?_
        rw [hf, List.length_append, hL.nfile] at hlt
        exact hlt
      unfold FS.bytes
      rw [h3]
      exact ⟨Nat.zero_le _, Nat.dvd_zero _⟩

/-- A write leaves the handle alone or makes it dirty. -/
theorem write_dirty_or (p : Nat) (a : Arr) (mem : Mem) (sw : Nat) (w : World) :
    wlp (runBOp env bb (.write p a mem sw)) w (fun r _ => r.2 = bb ∨ r.2.dirty = true) (fun _ => True) := by
  unfold runBOp
  dsimp only
  rw [wlp_bind]
  refine wlp_lift _ _ _ _ fun q => ?_
  obtain ⟨rc, ptr⟩ := q
  dsimp only
  split
  · exact Or.inl rfl
  · rw [wlp_bind]
    have key : wlp (blockWrite env bb ptr a mem) w (fun x _ => x.bb = bb ∨ x.bb.dirty = true) (fun _ => True) := by
      unfold blockWrite blockWriteFuel
      split
      · exact Or.inl rfl
      · dsimp only
        rw [wlp_bind]
        refine wlp_lift _ _ _ _ fun es => ?_
        obtain ⟨n1, n2, n3⟩ := es
        dsimp only
        rw [wlp_bind]
        refine wlp_lift _ _ _ _ fun ca => ?_
        rw [wlp_bind]
        refine wlp_lift _ _ _ _ fun fo => ?_
        split
        · exact Or.inr rfl
        · exact wlp_mono (writeLoop_dirty _ _ _ _ _ _ _ _ _ _ rfl) (fun _ _ h => Or.inr h) (fun _ h => h)
    exact wlp_mono key (fun _ _ h => h) (fun _ h => h)

theorem headerText_congr {b b' : Block} (h1 : b'.dtype = b.dtype) (h2 : b'.nmemb = b.nmemb) (h3 : b'.nfile = b.nfile)
    (h4 : b'.fsize = b.fsize) (h5 : b'.fchecksum = b.fchecksum) : headerText b' = headerText b := by
  unfold headerText
  rw [h1, h2, h3, h4, h5]

/-- The header file after a step that was taken. -/
theorem HeaderIs.step {bb' : Block} {w' : World} {x : BAns} {A : Content} (hh : Holds env K bb w.fs A) (hnf : w.faults = noFaults)
    (h : HeaderIs bb w.fs) (op : BOp) (hop : ∀ p a mem sw, op ≠ .read p a mem sw) (e : runBOp env bb op w = .ok (x, bb') w')
    (d : StepDone env K bb A w op x bb' w') : HeaderIs bb' w'.fs := by
  intro hd
  rw [d.base]
  cases op with
  | read p a mem sw => exact absurd rfl (hop p a mem sw)
  | write p a mem sw =>
    have hn : w'.fs.node (fileKey bb.basename .header) = w.fs.node (fileKey bb.basename .header) := by
      have hfs := d.effect
      simp only [DataEffect] at hfs
      rw [hfs]
      split
      · exact node_putRows_other _ _ _ _ _ _ _ (fun i _ => fileKey_ne (by simp))
      · rfl
    rcases wlp_ok (write_dirty_or p a mem sw w) e with h1 | h1
    · simp only at h1
      subst h1
      rw [hn]
      exact h hd
    · simp only at h1
      rw [hd] at h1
      cases h1
  | grow new =>
    exfalso
    have : wlp (runBOp env bb (.grow new)) w (fun r _ => r.2.dirty = true) (fun _ => True) := by
      unfold runBOp blockGrow
      dsimp only
      rw [wlp_bind, wlp_bind]
      have htriv : ∀ {α : Type} (m : M α) (w : World), wlp m w (fun _ _ => True) (fun _ => True) := by
        intro α m w
        unfold wlp
        cases m w <;> trivial
      refine wlp_mono (htriv _ _) ?_ (fun _ h => h)
      intro ok w1 _
      split <;> rfl
    have := wlp_ok this e
    simp only at this
    rw [hd] at this
    cases this
  | attr op =>
    have : wlp (runBOp env bb (.attr op)) w (fun r w1 => (∃ s, r.2 = { bb with attrset := s }) ∧ w1 = w) (fun _ => True) := by
      unfold runBOp
      dsimp only
      rw [wlp_bind]
      refine wlp_lift _ _ _ _ fun q => ?_
      exact ⟨⟨q.2, rfl⟩, rfl⟩
    obtain ⟨⟨s, h1⟩, h2⟩ := wlp_ok this e
    simp only at h1
    subst h1 h2
    exact h hd
  | flush =>
    obtain ⟨txt, s1, k1, _⟩ := hh.flush_says
    obtain ⟨⟨rc, b1⟩, w1, e1, f1, _, _, l1, l2⟩ := wpc_returns (wpc_blockFlush env bb txt s1 w k1) (fun _ hc => hc.1 hnf)
    have hrc : rc = 0 := l2 hnf hh.dir
    subst hrc
    obtain ⟨hbb, hfs⟩ := l1 rfl
    have hfs := hfs (by rw [hnf]; intro i n; simp [noFaults])
    simp only at hbb
    subst hbb
    have e' : runBOp env bb .flush w = .ok (⟨0, env.junk, none⟩, flushed bb s1) w1 := by
      unfold runBOp
      simp only [bind, M.bind]
      rw [e1]
      rfl
    rw [e'] at e
    injection e with e2 e3
    injection e2 with _ e2
    subst e2 e3
    rw [hfs, flushFS_header]
    cases hdd : bb.dirty with
    | true => rfl
    | false => exact h hdd
  | reopen =>
    obtain ⟨txt, s1, k1, _, k3, k4⟩ := hh.flush_says
    obtain ⟨⟨rc, b1⟩, w1, e1, f1, _, _, l1, l2⟩ := wpc_returns (wpc_blockFlush env bb txt s1 w k1) (fun _ hc => hc.1 hnf)
    have hrc : rc = 0 := l2 hnf hh.dir
    subst hrc
    obtain ⟨_, hfs⟩ := l1 rfl
    have hfs := hfs (by rw [hnf]; intro i n; simp [noFaults])
    rw [← hfs] at k3 k4
    obtain ⟨r, w2, e2, g1, g2, b, hr, hs, hck, hwa, hv, hd1, hd2⟩ :=
      wpc_returns (wpc_blockOpen_says (env := env) (C := fun _ => False) (f1.trans hnf) hh.savable.base hh.savable.notMeta
        hh.savable.offsets hh.savable.size k3 k4) (fun _ hc => hc)
    subst hr
    have e' : runBOp env bb .reopen w = .ok (⟨0, env.junk, none⟩, b) w2 := by
      unfold runBOp closeOpen blockClose
      simp only [bind, M.bind, pure, M.pure]
      rw [e1]
      simp only
      rw [e2]
      rfl
    rw [e'] at e
    injection e with e4 e3
    injection e4 with _ e4
    subst e4 e3
    rw [g1, hfs, flushFS_header, headerText_congr hs.dtype hs.nmemb hs.nfile hs.fsize hck]
    cases hdd : bb.dirty with
    | true => rfl
    | false => exact h hdd

theorem writeLoop_dtype (felsize : Int) (CHUNK_SIZE : Nat) (chunkArr : Arr) : ∀ (fuel : Nat) (bb : Block) (ptr : Ptr) (it : Iter)
    (towrite : Int) (mem : Mem) (w : World),
    wlp (writeLoop env felsize CHUNK_SIZE chunkArr fuel bb ptr it towrite mem) w (fun x _ => x.bb.dtype = bb.dtype) (fun _ => True) := by
  intro fuel
  induction fuel with
  | zero => intros; trivial
  | succ fuel ih =>
    intro bb ptr it towrite mem w
    unfold writeLoop
    rw [wlp_bind]
    refine wlp_lift _ _ _ _ fun e => ?_
    split
    · exact rfl
    · rw [wlp_bind]
      refine wlp_lift _ _ _ _ fun chunk => ?_
      rw [wlp_bind]
      refine wlp_lift _ _ _ _ fun r => ?_
      split
      · exact rfl
      · rw [wlp_bind]
        refine wlp_lift _ _ _ _ fun old => ?_
        dsimp only
        rw [wlp_bind]
        have htriv : ∀ {α : Type} (m : M α) (w : World), wlp m w (fun _ _ => True) (fun _ => True) := by
          intro α m w
          unfold wlp
          cases m w <;> trivial
        refine wlp_mono (htriv _ _) ?_ (fun _ h => h)
        intro ok w1 _
        split
        · exact rfl
        · rw [wlp_bind]
          refine wlp_lift _ _ _ _ fun q => ?_
          obtain ⟨rc, ptr⟩ := q
          dsimp only
          split
          · exact rfl
          · exact ih _ _ _ _ _ _

/-- The dtype of a handle is not changed. -/
theorem dtype_step {bb' : Block} {w' : World} {x : BAns} {A : Content} (hh : Holds env K bb w.fs A) (hnf : w.faults = noFaults)
    (op : BOp) (hop : ∀ p a mem sw, op ≠ .read p a mem sw) (e : runBOp env bb op w = .ok (x, bb') w') : bb'.dtype = bb.dtype := by
  have htriv : ∀ {α : Type} (m : M α) (w : World), wlp m w (fun _ _ => True) (fun _ => True) := by
    intro α m w
    unfold wlp
    cases m w <;> trivial
  cases op with
  | read p a mem sw => exact absurd rfl (hop p a mem sw)
  | write p a mem sw =>
    have key : wlp (runBOp env bb (.write p a mem sw)) w (fun r _ => r.2.dtype = bb.dtype) (fun _ => True) := by
      unfold runBOp
      dsimp only
      rw [wlp_bind]
      refine wlp_lift _ _ _ _ fun q => ?_
      obtain ⟨rc, ptr⟩ := q
      dsimp only
      split
      · exact rfl
      · rw [wlp_bind]
        have key : wlp (blockWrite env bb ptr a mem) w (fun x _ => x.bb.dtype = bb.dtype) (fun _ => True) := by
          unfold blockWrite blockWriteFuel
          split
          · exact rfl
          · dsimp only
            rw [wlp_bind]
            refine wlp_lift _ _ _ _ fun es => ?_
            obtain ⟨n1, n2, n3⟩ := es
            dsimp only
            rw [wlp_bind]
            refine wlp_lift _ _ _ _ fun ca => ?_
            rw [wlp_bind]
            refine wlp_lift _ _ _ _ fun fo => ?_
            split
            · exact rfl
            · exact writeLoop_dtype _ _ _ _ _ _ _ _ _ _
        exact wlp_mono key (fun _ _ h => h) (fun _ h => h)
    exact wlp_ok key e
  | grow new =>
    have key : wlp (runBOp env bb (.grow new)) w (fun r _ => r.2.dtype = bb.dtype) (fun _ => True) := by
      unfold runBOp blockGrow
      dsimp only
      rw [wlp_bind, wlp_bind]
      refine wlp_mono (htriv _ _) ?_ (fun _ h => h)
      intro ok w1 _
      split <;> rfl
    exact wlp_ok key e
  | attr op =>
    have key : wlp (runBOp env bb (.attr op)) w (fun r _ => r.2.dtype = bb.dtype) (fun _ => True) := by
      unfold runBOp
      dsimp only
      rw [wlp_bind]
      refine wlp_lift _ _ _ _ fun q => ?_
      exact rfl
    exact wlp_ok key e
  | flush =>
    obtain ⟨txt, s1, k1, _⟩ := hh.flush_says
    obtain ⟨⟨rc, b1⟩, w1, e1, f1, _, _, l1, l2⟩ := wpc_returns (wpc_blockFlush env bb txt s1 w k1) (fun _ hc => hc.1 hnf)
    have hrc : rc = 0 := l2 hnf hh.dir
    subst hrc
    obtain ⟨hbb, _⟩ := l1 rfl
    simp only at hbb
    subst hbb
    have e' : runBOp env bb .flush w = .ok (⟨0, env.junk, none⟩, flushed bb s1) w1 := by
      unfold runBOp
      simp only [bind, M.bind]
      rw [e1]
      rfl
    rw [e'] at e
    injection e with e2 e3
    injection e2 with _ e2
    subst e2
    rfl
  | reopen =>
    obtain ⟨txt, s1, k1, _, k3, k4⟩ := hh.flush_says
    obtain ⟨⟨rc, b1⟩, w1, e1, f1, _, _, l1, l2⟩ := wpc_returns (wpc_blockFlush env bb txt s1 w k1) (fun _ hc => hc.1 hnf)
    have hrc : rc = 0 := l2 hnf hh.dir
    subst hrc
    obtain ⟨_, hfs⟩ := l1 rfl
    have hfs := hfs (by rw [hnf]; intro i n; simp [noFaults])
    rw [← hfs] at k3 k4
    obtain ⟨r, w2, e2, g1, g2, b, hr, hs, hck, hwa, hv, hd1, hd2⟩ :=
      wpc_returns (wpc_blockOpen_says (env := env) (C := fun _ => False) (f1.trans hnf) hh.savable.base hh.savable.notMeta
        hh.savable.offsets hh.savable.size k3 k4) (fun _ hc => hc)
    subst hr
    have e' : runBOp env bb .reopen w = .ok (⟨0, env.junk, none⟩, b) w2 := by
      unfold runBOp closeOpen blockClose
      simp only [bind, M.bind, pure, M.pure]
      rw [e1]
      simp only
      rw [e2]
      rfl
    rw [e'] at e
    injection e with e4 e3
    injection e4 with _ e4
    subst e4
    exact hs.dtype

/-! ### The file of attributes -/

theorem hexPairs_eq (bytes : List Byte) : hexPairs bytes = hexBytes bytes := by
  induction bytes with
  | nil => rfl
  | cons b bs ih =>
    have hd : ∀ d, d < 16 → hexChar d = digitChar d := by decide
    have hb : b.toNat < 256 := b.toNat_lt
    show [hexChar (b.toNat / 16), hexChar (b.toNat % 16)] ++ hexPairs bs = _
    rw [ih, hd _ (by omega), hd _ (by omega)]
    rfl

theorem attrFileLine_eq (e : Entry) (t : CStr) : attrFileLine (e.name, e.val, t) = entryLine e t := by
  unfold attrFileLine entryLine
  dsimp only
  rw [hexPairs_eq]
  unfold intStr
  rw [if_neg (by omega)]
  rfl

/-- What is printed for some attributes of a set. -/
theorem attrLines_text (hf : FmtOk env) (todo : List Entry) : ∀ {s : AttrSet} {es : List Entry},
    AttrInv env.m s es → (∀ e ∈ todo, e ∈ es) → SortedE todo → (∀ e ∈ todo, Storable e.name e.val) →
    ∃ (ls : List (CStr × AttrVal × CStr)) (s' : AttrSet), attrLines env (todo.map (Entry.attr s.base)) s = some ((ls.map attrFileLine).flatten, s') ∧
      (∀ l ∈ ls, OneLine l.2.2) ∧ ls.map (fun l => (l.1, l.2.1)) = todo.map (fun e => (e.name, e.val)) := by
  induction todo with
  | nil =>
    intro s es _ _ _ _
    exact ⟨[], s, rfl, nofun, rfl⟩
  | cons e todo ih =>
    intro s es h hsub hsort hst
    have hee := hsub e (by simp)
    have heo := h.ok e hee
    have hse := hst e (by simp)
    have hsc := List.pairwise_cons.mp hsort
    obtain ⟨t, buf1, k1, k2, k3, _⟩ := attrLine_spec hf heo hse
    obtain ⟨bs, hbs⟩ : ∃ bs, bs = peek buf1 (s.base + e.off + e.name.length + 1) e.val.bytes.length := ⟨_, rfl⟩
    have hbl : bs.length = e.val.bytes.length := by rw [hbs, peek_length]
    have hinv1 : AttrInv env.m { s with buf := buf1 } (setVal es e.name bs) := by
      apply h.update hee buf1 bs hbl
      · rw [hbl, hbs]
      · rw [hbl]; exact k3
    have hsub1 : ∀ x ∈ todo, x ∈ setVal es e.name bs := by
      intro x hx
      refine mem_setVal.mpr (Or.inl ⟨hsub x (by simp [hx]), ?_⟩)
      exact (strcmp_lt_ne (hsc.1 x hx)).symm
    obtain ⟨ls, s', j1, j2, j3⟩ := ih hinv1 hsub1 hsc.2 (fun x hx => hst x (by simp [hx]))
    refine ⟨(e.name, e.val, t) :: ls, s', ?_, ?_, ?_⟩
    · have := attrLines_cons k1 j1
      rw [← attrFileLine_eq] at this
      exact this
    · intro l hl
      rcases List.mem_cons.mp hl with rfl | hl
      · exact k2
      · exact j2 l hl
    · rw [List.map_cons, List.map_cons, j3]

/-- The text of a whole set. -/
theorem attrLines_file (hf : FmtOk env) {s s' : AttrSet} {es : List Entry} {txt : CStr} (hi : AttrInv env.m s es)
    (hst : AllStorable (attrView env.m s)) (h : attrLines env s.list { s with dirty := false } = some (txt, s')) :
    AttrFile (attrView env.m s) txt := by
  have hst' : ∀ e ∈ es, Storable e.name e.val := by
    apply findE_of_mem_or _ hi.sorted
    rw [← hi.view_eq]; exact hst
  obtain ⟨ls, s1, k1, k2, k3⟩ := attrLines_text hf es (hi.dirty false) (fun _ h => h) hi.sorted hst'
  have e : attrLines env s.list { s with dirty := false } =
      attrLines env (es.map (Entry.attr s.base)) { s with dirty := false } :=
    congrArg (fun l => attrLines env l { s with dirty := false }) hi.list
  have h1 := (h.symm.trans e).trans k1
  injection h1 with h1
  injection h1 with h1 _
  refine ⟨ls, ⟨?_, k2⟩, ?_, h1⟩
  · intro n v
    rw [hi.view_eq, findE_iff hi.sorted]
    have key : (n, v) ∈ ls.map (fun l => (l.1, l.2.1)) ↔ (n, v) ∈ es.map (fun e => (e.name, e.val)) := by rw [k3]
    rw [List.mem_map, List.mem_map] at key
    constructor
    · rintro ⟨x, hx, h2, h3⟩
      obtain ⟨l, hl, he⟩ := key.mpr ⟨x, hx, by rw [h2, h3]⟩
      obtain ⟨n', v', t⟩ := l
      injection he with he1 he2
      exact ⟨t, by rw [← he1, ← he2]; exact hl⟩
    · rintro ⟨t, ht⟩
      obtain ⟨x, hx, he⟩ := key.mp ⟨_, ht, rfl⟩
      injection he with he1 he2
      exact ⟨x, hx, he1, he2⟩
  · have h2 : (ls.map (fun l => (l.1, l.2.1))).Pairwise (fun a b => strcmp a.1 b.1 = .lt) := by
      rw [k3, List.pairwise_map]
      exact hi.sorted
    rw [List.pairwise_map] at h2
    exact h2

/-- The file of attributes is what the handle last wrote. -/
def AttrsAre (bb : Block) (fs : FS) (A : Content) : Prop :=
  A.pending = false → ∃ text, fs.node (fileKey bb.basename .attrV2) = some (.file text) ∧ AttrFile A.saved text

/-- After a flush. -/
theorem AttrsAre.flushed {bb : Block} {fs : FS} {A : Content} {txt : CStr} {s1 : AttrSet} (hh : Holds env K bb fs A)
    (h : AttrsAre bb fs A)
    (hd : bb.attrset.dirty = true → attrLines env bb.attrset.list { bb.attrset with dirty := false } = some (txt, s1)) :
    ∃ text, (flushFS bb txt fs).node (fileKey bb.basename .attrV2) = some (.file text) ∧
      AttrFile (if A.pending then A.attrs else A.saved) text := by
  rw [flushFS_attr, hh.pending]
  cases hp : A.pending with
  | true =>
    obtain ⟨es, hi⟩ := hh.savable.attrs
    refine ⟨txt, rfl, ?_⟩
    rw [if_pos rfl, ← hh.attrs]
    exact attrLines_file hh.savable.fmt hi hh.savable.storable (hd (by rw [hh.pending, hp]))
  | false => exact h hp

/-- The file of attributes after a step that was taken. -/
theorem AttrsAre.step {bb' : Block} {w' : World} {x : BAns} {A : Content} (hh : Holds env K bb w.fs A) (hnf : w.faults = noFaults)
    (h : AttrsAre bb w.fs A) (op : BOp) (hop : ∀ p a mem sw, op ≠ .read p a mem sw) (e : runBOp env bb op w = .ok (x, bb') w')
    (d : StepDone env K bb A w op x bb' w') : AttrsAre bb' w'.fs (A.next env K op) := by
  intro hd
  rw [d.base]
  cases op with
  | read p a mem sw => exact absurd rfl (hop p a mem sw)
  | write p a mem sw =>
    have hn : w'.fs.node (fileKey bb.basename .attrV2) = w.fs.node (fileKey bb.basename .attrV2) := by
      have hfs := d.effect
      simp only [DataEffect] at hfs
      rw [hfs]
      split
      · exact node_putRows_other _ _ _ _ _ _ _ (fun i _ => fileKey_ne (by simp))
      · rfl
    rw [hn]
    simp only [Content.next] at hd ⊢
    split
    · rename_i hc
      rw [if_pos hc] at hd
      exact h hd
    · rename_i hc
      rw [if_neg hc] at hd
      exact h hd
  | grow new =>
    have hn : w'.fs.node (fileKey bb.basename .attrV2) = w.fs.node (fileKey bb.basename .attrV2) := by
      have hfs := d.effect
      simp only [DataEffect] at hfs
      rw [hfs]
      exact truncFS_other _ _ _ _ _ (fun f _ _ => fileKey_ne (by simp))
    rw [hn]
    exact h hd
  | attr op =>
    have : wlp (runBOp env bb (.attr op)) w (fun _ w1 => w1 = w) (fun _ => True) := by
      unfold runBOp
      dsimp only
      rw [wlp_bind]
      refine wlp_lift _ _ _ _ fun q => ?_
      exact rfl
    have h2 := wlp_ok this e
    subst h2
    simp only [Content.next, Bool.or_eq_false_iff] at hd
    exact h hd.1
  | flush =>
    obtain ⟨txt, s1, k1, _⟩ := hh.flush_says
    obtain ⟨⟨rc, b1⟩, w1, e1, f1, _, _, l1, l2⟩ := wpc_returns (wpc_blockFlush env bb txt s1 w k1) (fun _ hc => hc.1 hnf)
    have hrc : rc = 0 := l2 hnf hh.dir
    subst hrc
    obtain ⟨hbb, hfs⟩ := l1 rfl
    have hfs := hfs (by rw [hnf]; intro i n; simp [noFaults])
    simp only at hbb
    subst hbb
    have e' : runBOp env bb .flush w = .ok (⟨0, env.junk, none⟩, Verif.flushed bb s1) w1 := by
      unfold runBOp
      simp only [bind, M.bind]
      rw [e1]
      rfl
    rw [e'] at e
    injection e with e2 e3
    subst e3
    rw [hfs]
    obtain ⟨text, g1, g2⟩ := h.flushed hh k1
    refine ⟨text, g1, ?_⟩
    simp only [Content.next]
    cases hp : A.pending with
    | true => rw [hp] at g2; exact g2
    | false => rw [hp] at g2; exact g2
  | reopen =>
    obtain ⟨txt, s1, k1, _, k3, k4⟩ := hh.flush_says
    obtain ⟨⟨rc, b1⟩, w1, e1, f1, _, _, l1, l2⟩ := wpc_returns (wpc_blockFlush env bb txt s1 w k1) (fun _ hc => hc.1 hnf)
    have hrc : rc = 0 := l2 hnf hh.dir
    subst hrc
    obtain ⟨_, hfs⟩ := l1 rfl
    have hfs := hfs (by rw [hnf]; intro i n; simp [noFaults])
    rw [← hfs] at k3 k4
    obtain ⟨r, w2, e2, g1, g2, b, hr, hs, hck, hwa, hv, hd1, hd2⟩ :=
      wpc_returns (wpc_blockOpen_says (env := env) (C := fun _ => False) (f1.trans hnf) hh.savable.base hh.savable.notMeta
        hh.savable.offsets hh.savable.size k3 k4) (fun _ hc => hc)
    subst hr
    have e' : runBOp env bb .reopen w = .ok (⟨0, env.junk, none⟩, b) w2 := by
      unfold runBOp closeOpen blockClose
      simp only [bind, M.bind, pure, M.pure]
      rw [e1]
      simp only
      rw [e2]
      rfl
    rw [e'] at e
    injection e with e4 e3
    subst e3
    rw [g1, hfs]
    obtain ⟨text, g1, g2⟩ := h.flushed hh k1
    refine ⟨text, g1, ?_⟩
    simp only [Content.next]
    cases hp : A.pending with
    | true => rw [hp] at g2; exact g2
    | false => rw [hp] at g2; exact g2

/-- Lines written by another program can be read. -/
theorem parse_fileLines (ls : List (CStr × AttrVal × CStr)) (hty : ∀ l ∈ ls, Typed env.m l.2.1 ∧ Storable l.1 l.2.1)
    (hone : ∀ l ∈ ls, OneLine l.2.2) :
    ∀ (fuel : Nat) (rest : CStr) (sp : AttrSet) (ep : List Entry), AttrInv env.m sp ep →
      ∃ sp' ep', parseV2 env (ls.length + fuel) ((ls.map attrFileLine).flatten ++ rest) sp = parseV2 env fuel rest sp' ∧
        AttrInv env.m sp' ep' ∧ findE ep' = ls.foldl (fun M l => M.put l.1 l.2.1) (findE ep) := by
  induction ls with
  | nil => intro fuel rest sp ep h; exact ⟨sp, ep, by simp, h, rfl⟩
  | cons l ls ih =>
    intro fuel rest sp ep h
    obtain ⟨n, v, t⟩ := l
    obtain ⟨h1, h2⟩ := hty (n, v, t) (by simp)
    obtain ⟨sp1, ep1, l1, l2, l3⟩ := parseV2_line (e := ⟨0, n, v⟩) h h1 h2 (hone (n, v, t) (by simp))
      ((ls.map attrFileLine).flatten ++ rest) (ls.length + fuel)
    obtain ⟨sp2, ep2, m1, m2, m3⟩ := ih (fun x hx => hty x (by simp [hx])) (fun x hx => hone x (by simp [hx])) fuel rest sp1 ep1 l2
    refine ⟨sp2, ep2, ?_, m2, ?_⟩
    · rw [List.length_cons, show ls.length + 1 + fuel = ls.length + fuel + 1 by omega, List.map_cons, List.flatten_cons,
        List.append_assoc, attrFileLine_eq ⟨0, n, v⟩ t, l1, m1]
    · rw [m3, l3]; rfl

/-- What the lines say, put together. -/
theorem linesSay_fold {M : AttrMap} {ls : List (CStr × AttrVal × CStr)} (h : LinesSay M ls) :
    ls.foldl (fun M l => M.put l.1 l.2.1) AttrMap.empty = M := by
  have key : ∀ (ls : List (CStr × AttrVal × CStr)) (M0 : AttrMap) (n : CStr) (v : Option AttrVal),
      (∀ l ∈ ls, l.1 = n → v = some l.2.1) → (M0 n = v ∨ ∃ l ∈ ls, l.1 = n) →
      ls.foldl (fun M l => M.put l.1 l.2.1) M0 n = v := by
    intro ls
    induction ls with
    | nil =>
      intro M0 n v _ h2
      rcases h2 with h2 | ⟨l, hl, _⟩
      · exact h2
      · cases hl
    | cons l ls ih =>
      intro M0 n v h1 h2
      rw [List.foldl_cons]
      apply ih _ _ _ (fun x hx => h1 x (by simp [hx]))
      by_cases hn : l.1 = n
      · left
        unfold AttrMap.put
        rw [if_pos hn.symm]
        exact (h1 l (by simp) hn).symm
      · rcases h2 with h2 | ⟨x, hx, hxn⟩
        · left
          unfold AttrMap.put
          rw [if_neg (fun h => hn h.symm)]
          exact h2
        · right
          rcases List.mem_cons.mp hx with rfl | hx
          · exact absurd hxn hn
          · exact ⟨x, hx, hxn⟩
  funext n
  apply key
  · rintro ⟨n', v, t⟩ hl hn
    simp only at hn
    subst hn
    exact (h.1 n' v).mpr ⟨t, hl⟩
  · cases hm : M n with
    | none => exact Or.inl rfl
    | some v =>
      obtain ⟨t, ht⟩ := (h.1 n v).mp hm
      exact Or.inr ⟨_, ht, rfl⟩

/-- What is known of a handle and its directory. -/
structure HoldsF (env : Env) (K : Kind) (dt : CStr) (bb : Block) (fs : FS) (H : Holey) : Prop where
  holey : HoldsH env K bb fs H
  fit : FilesFit env.m bb fs
  header : HeaderIs bb fs
  dtype : bb.dtype = dt
  attrs : AttrsAre bb fs H.content

theorem HoldsF.step {dt : CStr} (h : HoldsF env K dt bb w.fs H) (hnf : w.faults = noFaults) (op : BOp) (hl : H.legal env K op) :
    ∃ x bb' w', runBOp env bb op w = .ok (x, bb') w' ∧ w'.faults = noFaults ∧ bb'.basename = bb.basename ∧
      H.answers env K op x ∧ HoldsF env K dt bb' w'.fs (H.next env K op) ∧ (op.cleans = true → bb'.dirty = false) := by
  have other : (∀ p a mem sw, op ≠ .read p a mem sw) → H.content.legal env K op →
      (∀ x, H.content.answers env K op x → H.answers env K op x) →
      ∃ x bb' w', runBOp env bb op w = .ok (x, bb') w' ∧ w'.faults = noFaults ∧ bb'.basename = bb.basename ∧
      H.answers env K op x ∧ HoldsF env K dt bb' w'.fs (H.next env K op) ∧ (op.cleans = true → bb'.dirty = false) := by
    intro hop hl' ha
    obtain ⟨x, bb', w', e, d⟩ := bop_step h.holey.holds hnf op hl'
    exact ⟨x, bb', w', e, d.faults, d.base, ha x d.ans, ⟨h.holey.step op d hl', FilesFit.step h.holey.holds h.fit op d hl',
      HeaderIs.step h.holey.holds hnf h.header op hop e d, (dtype_step h.holey.holds hnf op hop e).trans h.dtype,
      AttrsAre.step h.holey.holds hnf h.attrs op hop e d⟩, d.clean⟩
  cases op with
  | read p a mem sw =>
    obtain ⟨x, w', e, h1, h2, h3⟩ := h.holey.rowsH.read hnf p a mem sw hl
    exact ⟨x, bb, w', e, h1, rfl, h3, by rw [h2]; exact h, nofun⟩
  | write p a mem sw => exact other (by simp) hl (fun _ h => h)
  | grow new => exact other (by simp) hl (fun _ h => h)
  | attr op => exact other (by simp) hl (fun _ h => h)
  | flush => exact other (by simp) hl (fun _ h => h)
  | reopen => exact other (by simp) hl (fun _ h => h)

/-- A data file. -/
theorem HoldsF.file {dt : CStr} {fs : FS} (h : HoldsF env K dt bb fs H) (f : Nat) (hf : f < H.sizes.length) :
    ∃ bytes, fs.node (fileKey bb.basename (.data f)) = some (.file bytes) ∧ FileHolds K H f bytes := by
  have hL := h.holey.holds.ok.layout
  have hf' : f < bb.fsize.length := by rw [h.holey.sizes]; exact hf
  obtain ⟨bytes, hb⟩ := h.holey.holds.data f (by rw [← hL.nfile]; exact hf')
  obtain ⟨hle, n, hn⟩ := h.fit f hf'
  obtain ⟨hrs, hpos⟩ := h.holey.pos
  have hby : fs.bytes (fileKey bb.basename (.data f)) = bytes := by
    unfold FS.bytes
    rw [hb]
  rw [hby] at hle hn
  have hget : H.sizes.getD f 0 = bb.fsize[f] := by
    rw [← h.holey.sizes, List.getD_eq_getElem?_getD, List.getElem?_eq_getElem hf']
    rfl
  have hsum : H.sizes.sum = H.content.size := by rw [← h.holey.sizes, ← hL.size]; exact h.holey.holds.size
  have hss := start_succ' bb.fsize f hf'
  have hle2 : start bb.fsize (f + 1) ≤ bb.fsize.sum := start_le _ _
  have hst : start H.sizes f = start bb.fsize f := by rw [h.holey.sizes]
  have hnle : n ≤ bb.fsize[f] := by
    rw [hn, Nat.mul_comm] at hle
    exact Nat.le_of_mul_le_mul_right hle hpos
  -- the place of row `i` of the file
  have hloc : ∀ i, i < bb.fsize[f] → locate bb.fsize (start bb.fsize f + i) = (f, i) := by
    intro i hi
    have := locate_unique bb.fsize f (start bb.fsize f + i) (Nat.le_add_right _ _) (by rw [hss]; omega)
    rw [this]
    simp
  have hlt : ∀ i, i < bb.fsize[f] → start bb.fsize f + i < H.content.size := by
    intro i hi
    rw [← hsum, ← h.holey.sizes]
    omega
  have hrow : ∀ i, i < bb.fsize[f] → row env.m fs bb (start bb.fsize f + i) =
      (bytes.drop (i * rowSize env.m bb)).take (rowSize env.m bb) := by
    intro i hi
    unfold row rowFile rowOff
    rw [hloc i hi, hby]
  have hstored : ∀ i, i < bb.fsize[f] → (Stored env.m fs bb (start bb.fsize f + i) ↔ i < n) := by
    intro i hi
    unfold Stored
    rw [hrow i hi, List.length_take, List.length_drop, hn, Nat.mul_comm i, ← Nat.mul_sub]
    constructor
    · intro h1
      rcases Nat.lt_or_ge i n with h2 | h2
      · exact h2
      · exfalso
        rw [Nat.sub_eq_zero_of_le h2] at h1
        simp at h1
        omega
    · intro h1
      have : rowSize env.m bb * 1 ≤ rowSize env.m bb * (n - i) := Nat.mul_le_mul_left _ (by omega)
      omega
  have hreach : ∀ i, i < bb.fsize[f] → (H.reached (start bb.fsize f + i) ↔ i < n) := fun i hi => by
    rw [← hstored i hi]
    exact (h.holey.reach _ (hlt i hi)).symm
  refine ⟨bytes, hb, n, by rw [hget]; exact hnle, ?_, ?_, ?_⟩
  · rw [hst, ← flatN_slices bytes (rowSize env.m bb) n (by rw [hn, Nat.mul_comm])]
    apply flatN_congr
    intro i hi
    rw [← hrow i (by omega)]
    exact h.holey.row_eq (hlt i (by omega)) ((hreach i (by omega)).mpr hi)
  · intro i hi
    obtain ⟨r', h1, h2, h3⟩ := (hreach i (by omega)).mpr (by omega)
    rw [← h.holey.sizes, hloc i (by omega)] at h2
    simp only at h2
    obtain ⟨b', hb'⟩ := Option.isSome_iff_exists.mp h3
    have hr' := (h.holey.holds.rows r' b' hb').1
    have hr'' : r' < bb.fsize.sum := by rw [h.holey.sizes, hsum]; exact hr'
    have h4 := locate_lt bb.fsize r' hr''
    rw [h2, hss] at h4
    have h5 : r' = start bb.fsize f + (r' - start bb.fsize f) := by omega
    have h6 := (h.holey.holds.rows r' b' hb').2.2
    rw [h5, hstored _ (by omega)] at h6
    have h7 : r' = start bb.fsize f + i := by omega
    rw [hst, ← h7]
    exact h3
  · intro i h1 h2
    rw [hget] at h2
    rw [hst]
    cases hc : H.content.rows (start bb.fsize f + i) with
    | none => rfl
    | some b =>
      exfalso
      have := (hstored i h2).mp (h.holey.holds.rows _ b hc).2.2
      omega

end Verif
